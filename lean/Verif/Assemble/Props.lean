import Verif.Assemble.Inv

/-! # C87: datagrams are put together as the protocol asks -/

namespace Neqo.Asm

/-! ## Specification -/

/-- The frame writers keep to the space they are given, and ACK and path frames leave at least one
byte for a PING. -/
structure Polite (w : Writers) : Prop where
  ack : ∀ s r, 2 ≤ r → w.ack s r < r
  path : ∀ s r, 2 ≤ r → w.ack s r + (w.path (r - w.ack s r)).1 < r
  path' : ∀ r, 2 ≤ r → (w.path r).1 < r
  data : ∀ s r, w.data s r ≤ r
  close : ∀ s r, w.close s r ≤ r

/-- The sizes of the packets that a receiver sees in a datagram: a packet with a long header says
how long it is, one with a short header goes up to the end of the datagram (RFC 9000, section
12.2). `n` is the number of bytes that follow the packets. -/
def asRead : List Pkt → Nat → List Nat
  | [], _ => []
  | p :: rest, n =>
    if p.long then p.size :: asRead rest n else [p.size + (rest.map Pkt.size).sum + n]

/-- The position of a space in a datagram. -/
def rank : Space → Nat
  | .initial => 0
  | .handshake => 1
  | .app => 2

/-! ## Sizes -/

theorem bound_ge {c : Conn} (hp : ∀ p, c.probe = some p → c.limit ≤ p) : c.limit ≤ bound c := by
  unfold bound
  cases h : c.probe with
  | none => exact Nat.le_refl _
  | some p => exact hp p h

theorem dgram_len {c : Conn} {w : Writers} {d : Dgram} {st : St}
    (e : spaces c w [.initial, .handshake, .app] St.init = .ok st) (f : finish c st = some d) :
    d.len = st.len + (if st.initial.isSome = true ∧ st.pad = true then c.limit - st.len else 0) := by
  obtain ⟨i, _⟩ := final_size e
  obtain ⟨_, h1, _, h2⟩ := finish_cases f
  unfold Dgram.len
  rw [h1, i.sum]
  rcases h2 with ⟨h3, h4, _⟩ | ⟨size, h3, h4, _⟩
  · rw [h4, h3]; simp
  · rw [h4, h3, padding_length]
    cases st.pad <;> simp

/-- A datagram is never larger than the limit of the send profile, or than the size of a path MTU
probe when one is wanted. -/
theorem C87_size {c : Conn} {w : Writers} {d : Dgram} (hp : ∀ p, c.probe = some p → c.limit ≤ p)
    (e : output c w = .ok (some d)) :
    (c.probe = none → d.len ≤ c.limit) ∧ (∀ p, c.probe = some p → d.len ≤ p) := by
  obtain ⟨st, e1, e2⟩ := output_ok e
  obtain ⟨i, _⟩ := final_size e1
  have hl := dgram_len e1 e2
  have h1 := i.le
  have h2 := bound_ge hp
  have h3 : d.len ≤ bound c := by
    rw [hl]
    split <;> omega
  unfold bound at h3
  constructor
  · intro hn; rw [hn] at h3; exact h3
  · intro p hn; rw [hn] at h3; exact h3

/-- The limit of a send profile never exceeds the path MTU. -/
theorem C87_profile (pto : Bool) (cwnd amp mtu : Nat) (wait rec : Bool) (h : 255 ≤ mtu) :
    255 ≤ profileLimit pto cwnd amp mtu wait rec ∧ profileLimit pto cwnd amp mtu wait rec ≤ mtu := by
  unfold profileLimit
  repeat' split
  all_goals omega

/-- A datagram that is made when no path MTU probe is wanted fits into the path MTU. -/
theorem C87_within_mtu {c : Conn} {w : Writers} {d : Dgram} {pto wait rec : Bool} {cwnd amp : Nat}
    (hm : 255 ≤ c.mtu) (hl : c.limit = profileLimit pto cwnd amp c.mtu wait rec)
    (hn : c.probe = none) (e : output c w = .ok (some d)) : d.len ≤ c.mtu := by
  have h1 := (C87_size (by intro p h; rw [hn] at h; cases h) e).1 hn
  have h2 := (C87_profile pto cwnd amp c.mtu wait rec hm).2
  omega

/-- A datagram that is sent contains at least one packet, and no packet is empty. -/
theorem C87_not_empty {c : Conn} {w : Writers} {d : Dgram} (e : output c w = .ok (some d)) :
    d.pkts ≠ [] ∧ (∀ p ∈ d.pkts, 0 < p.size) ∧ 0 < d.len := by
  obtain ⟨st, e1, e2⟩ := output_ok e
  obtain ⟨i, _⟩ := final_size e1
  obtain ⟨h0, h1, _, _⟩ := finish_cases e2
  have hl := dgram_len e1 e2
  refine ⟨?_, by rw [h1]; exact i.pos, by omega⟩
  intro h
  have := i.sum
  rw [← h1, h] at this
  exact h0 this.symm

/-- Every byte of the datagram, padding included, is reported to loss recovery. -/
theorem C87_counted {c : Conn} {w : Writers} {d : Dgram} (e : output c w = .ok (some d)) :
    (d.tracked.map Prod.snd).sum = d.len := by
  obtain ⟨st, e1, e2⟩ := output_ok e
  obtain ⟨i, _⟩ := final_size e1
  have hl := dgram_len e1 e2
  obtain ⟨_, _, _, h2⟩ := finish_cases e2
  have ht := i.trk
  rcases h2 with ⟨h3, h4, h5⟩ | ⟨size, h3, h4, h5⟩
  · rw [h5, hl]
    rw [h3] at ht ⊢
    simpa using ht
  · rw [h5, hl]
    rw [h3] at ht ⊢
    simp only [List.map_append, List.sum_append, List.map_cons, List.map_nil, List.sum_cons,
      List.sum_nil, Option.getD_some, Option.isSome_some, true_and] at ht ⊢
    omega

/-! ## No errors -/

theorem afterAck_bounds {c : Conn} {w : Writers} (po : Polite w) (s : Space) {limit len : Nat}
    (h : len + 2 ≤ limit) :
    len ≤ afterAck c w s limit len ∧ afterAck c w s limit len < limit := by
  have h1 := po.ack s (limit - len) (by omega)
  unfold afterAck
  split <;> omega

theorem afterPath_bounds {c : Conn} {w : Writers} (po : Polite w) (s : Space) {limit len : Nat}
    (pd : Bool) (h : len + 2 ≤ limit) :
    afterAck c w s limit len ≤ (afterPath c w s limit (afterAck c w s limit len) pd).1 ∧
    (afterPath c w s limit (afterAck c w s limit len) pd).1 < limit := by
  have h0 := afterAck_bounds (c := c) po s h
  have h1 := po.path s (limit - len) (by omega)
  have h2 := po.path' (limit - len) (by omega)
  have ha := po.ack s (limit - len) (by omega)
  unfold afterPath
  split
  · dsimp only
    refine ⟨Nat.le_add_right _ _, ?_⟩
    unfold afterAck at h0 ⊢
    split
    · rename_i hp
      rw [show limit - (len + w.ack s (limit - len)) = limit - len - w.ack s (limit - len) by omega]
      omega
    · omega
  · exact ⟨Nat.le_refl _, h0.2⟩

theorem contents_fit {c : Conn} {w : Writers} (po : Polite w) (s : Space) (long co pd : Bool)
    {limit len : Nat} (h : len + 2 ≤ limit) :
    (contents c w s long co pd limit len).len ≤ limit := by
  unfold contents
  split
  · have := po.close s (limit - len)
    dsimp only
    omega
  · have h1 := afterPath_bounds (c := c) po s pd h
    unfold writeFrames
    dsimp only
    generalize afterPath c w s limit (afterAck c w s limit len) pd = x at *
    obtain ⟨p, en⟩ := x
    dsimp only at h1 ⊢
    split
    · exact Nat.le_of_lt h1.2
    · dsimp only
      have h2 : p ≤ afterData c w s co limit p ∧ afterData c w s co limit p ≤ limit := by
        unfold afterData
        dsimp only
        have hq : p ≤ (if isProbe c s co then p + 1 else p) ∧
            (if isProbe c s co then p + 1 else p) ≤ limit := by
          split <;> omega
        generalize (if isProbe c s co then p + 1 else p) = q at *
        have := po.data s (limit - q)
        split <;> omega
      have h3 : (if afterAck c w s limit len < afterData c w s co limit p then afterData c w s co limit p
          else if w.ping s then afterData c w s co limit p + 1 else afterData c w s co limit p) ≤ limit := by
        split
        · exact h2.2
        · split <;> omega
      generalize (if afterAck c w s limit len < afterData c w s co limit p then afterData c w s co limit p
          else if w.ping s then afterData c w s co limit p + 1 else afterData c w s co limit p) = y at *
      split
      · exact Nat.max_le.mpr ⟨h3, Nat.le_refl _⟩
      · exact h3

theorem C87_no_error {c : Conn} {w : Writers} (po : Polite w) : ∃ r, output c w = .ok r := by
  have hs : ∀ s st, ∃ st', space c w s st = .ok st' := by
    intro s st
    unfold space
    cases c.keys s with
    | none => exact ⟨_, rfl⟩
    | some k =>
      dsimp only
      split
      · exact ⟨_, rfl⟩
      · split
        · exact ⟨_, rfl⟩
        · rename_i h _ hr
          split
          · exact ⟨_, rfl⟩
          · rw [if_neg]
            · exact ⟨_, rfl⟩
            · have := contents_fit (c := c) po s k.long (decide (st.len ≠ 0))
                (st.pad || c.probe.isSome) (limit := spaceLimit c s - k.expansion) (len := h) (by omega)
              omega
  have hl : ∀ l st, ∃ st', spaces c w l st = .ok st' := by
    intro l
    induction l with
    | nil => intro st; exact ⟨st, rfl⟩
    | cons s rest ih =>
      intro st
      unfold spaces
      split
      · exact ⟨_, rfl⟩
      · obtain ⟨st1, h1⟩ := hs s st
        obtain ⟨st2, h2⟩ := ih st1
        exact ⟨st2, by rw [h1]; exact h2⟩
  obtain ⟨st, h⟩ := hl [.initial, .handshake, .app] St.init
  exact ⟨finish c st, by unfold output; rw [h]; rfl⟩

/-! ## What packets a datagram holds -/

/-- A fact that holds of every packet when it is added holds of all packets of the datagram. -/
theorem all_pkts {c : Conn} {w : Writers} {d : Dgram} {Q : Pkt → Prop}
    (hq : ∀ s k st st' h r, Added c w s k st st' h r →
      Q ⟨s, k.long, buildLen k h r.len - st.len, r.ack, r.elicits, r.probe⟩)
    (e : output c w = .ok (some d)) : ∀ p ∈ d.pkts, Q p := by
  obtain ⟨st, e1, e2⟩ := output_ok e
  obtain ⟨_, h1, _, _⟩ := finish_cases e2
  rw [h1]
  refine spaces_induct (P := fun _ st => ∀ p ∈ st.pkts, Q p) ?_ (fun _ _ h _ => h) _ _ _
    (by intro p hp; cases hp) e1
  intro s rest st st' h _ he
  rcases space_cases he with hh | ⟨k, h', r, a⟩
  · rw [hh.pkts]; exact h
  · rw [a.pkts]
    intro p hp
    rcases List.mem_append.mp hp with h1 | h1
    · exact h p h1
    · rw [List.mem_singleton.mp h1]
      exact hq _ _ _ _ _ _ a

/-- Packets come in the order Initial, Handshake, application data, at most one of each. -/
theorem C87_order {c : Conn} {w : Writers} {d : Dgram} (e : output c w = .ok (some d)) :
    d.pkts.Pairwise (fun p q => rank p.space < rank q.space) := by
  obtain ⟨st, e1, e2⟩ := output_ok e
  obtain ⟨_, h1, _, _⟩ := finish_cases e2
  obtain ⟨_, pre, h2, h3⟩ := final_size e1
  rw [List.append_nil] at h2
  rw [h2] at h3
  have : ([Space.initial, .handshake, .app] : List Space).Pairwise (fun a b => rank a < rank b) := by
    decide
  have h4 := List.Pairwise.sublist h3 this
  rw [List.pairwise_map] at h4
  rw [h1]
  exact h4

/-- Only packets in the application data space have short headers. -/
theorem short_app {c : Conn} {w : Writers} {d : Dgram} (ko : KeysOk c)
    (e : output c w = .ok (some d)) : ∀ p ∈ d.pkts, p.long = false → p.space = .app := by
  refine all_pkts (Q := fun p => p.long = false → p.space = .app) ?_ e
  intro s k st st' h r a hl
  by_contra hne
  have := ko.long hne a.key
  dsimp only at hl
  rw [hl] at this
  cases this

/-- A packet with a short header is the last one in its datagram. -/
theorem C87_short_last {c : Conn} {w : Writers} {d : Dgram} (ko : KeysOk c)
    (e : output c w = .ok (some d)) {pre post : List Pkt} {p : Pkt}
    (h : d.pkts = pre ++ p :: post) (hs : p.long = false) : post = [] := by
  have ho := C87_order e
  have ha := short_app ko e p (by rw [h]; simp) hs
  rw [h, List.pairwise_append, List.pairwise_cons] at ho
  cases post with
  | nil => rfl
  | cons q t =>
    have := ho.2.1.1 q List.mem_cons_self
    rw [ha] at this
    cases hq : q.space <;> rw [hq] at this <;> simp [rank] at this

/-- A packet is reported as ack-eliciting exactly if it is, unless the profile allows only ACK
frames and the packet holds path frames. -/
theorem C87_elicits {c : Conn} {w : Writers} {d : Dgram} (e : output c w = .ok (some d)) :
    ∀ p ∈ d.pkts, (p.space ≠ .app ∨ 256 ≤ c.limit) → p.ack = p.elicits := by
  refine all_pkts (Q := fun p => (p.space ≠ .app ∨ 256 ≤ c.limit) → p.ack = p.elicits) ?_ e
  intro s k st st' h r a hs
  dsimp only at hs ⊢
  rw [a.wrote]
  unfold contents
  split
  · rfl
  · unfold writeFrames
    dsimp only
    split
    · rename_i ho
      have hs' : s ≠ .app := by
        rcases hs with h1 | h1
        · exact h1
        · unfold ackOnly at ho
          simp at ho
          omega
      unfold afterPath
      rw [if_neg (fun hh => hs' hh.1)]
      simp
    · rfl

/-! ## Padding of Initial packets -/

/-- A client pads every datagram with an Initial packet to the limit of the send profile.  So
it is at least 1200 bytes if the profile allows that. -/
theorem C87_client_initial {c : Conn} {w : Writers} {d : Dgram} (ko : KeysOk c)
    (hp : ∀ p, c.probe = some p → c.limit ≤ p) (hc : c.client = true)
    (e : output c w = .ok (some d)) (hi : ∃ p ∈ d.pkts, p.space = .initial) : c.limit ≤ d.len := by
  obtain ⟨st, e1, e2⟩ := output_ok e
  obtain ⟨_, h1, _, _⟩ := finish_cases e2
  obtain ⟨p, hm, hs⟩ := hi
  rw [h1] at hm
  obtain ⟨h2, h3⟩ := (final_pad ko (bound_ge hp) e1).ini p hm ⟨hs, .inl hc⟩
  rw [dgram_len e1 e2]
  rcases h3 with h3 | h3
  · rw [if_pos ⟨h2, h3⟩]; omega
  · omega

/-- A server pads every datagram with an ack-eliciting Initial packet to the limit of the send
profile. -/
theorem C87_server_initial {c : Conn} {w : Writers} {d : Dgram} (ko : KeysOk c)
    (hp : ∀ p, c.probe = some p → c.limit ≤ p)
    (e : output c w = .ok (some d)) (hi : ∃ p ∈ d.pkts, p.space = .initial ∧ p.elicits = true) :
    c.limit ≤ d.len := by
  obtain ⟨p, hm, hs, hel⟩ := hi
  have ha := C87_elicits e p hm (.inl (by rw [hs]; intro h; cases h))
  obtain ⟨st, e1, e2⟩ := output_ok e
  obtain ⟨_, h1, _, _⟩ := finish_cases e2
  rw [h1] at hm
  obtain ⟨h2, h3⟩ := (final_pad ko (bound_ge hp) e1).ini p hm ⟨hs, .inr (by rw [ha, hel])⟩
  rw [dgram_len e1 e2]
  rcases h3 with h3 | h3
  · rw [if_pos ⟨h2, h3⟩]; omega
  · omega

/-! ## Padding and packets stay apart -/

/-- While an Initial packet waits for its padding, padding is wanted or the limit is reached; once
an ack-eliciting packet with a short header was added with a full-size profile, no padding is
missing. -/
structure ApartInv (c : Conn) (st : St) : Prop where
  wait : (∀ p ∈ st.pkts, p.long = true) → st.initial.isSome = true → st.pad = true ∨ c.limit ≤ st.len
  done : (∃ p ∈ st.pkts, p.long = false ∧ p.elicits = true) → c.limit = c.mtu → 256 ≤ c.limit →
    st.initial.isSome = true → c.limit ≤ st.len

theorem contents_elicits {c : Conn} {w : Writers} {s : Space} {co pd : Bool} {limit len : Nat}
    (h : (contents c w s false co pd limit len).elicits = true) (hf : c.limit = c.mtu)
    (hl : 256 ≤ c.limit) (hpd : pd = true) :
    (contents c w s false co pd limit len).padded = true := by
  unfold contents at h ⊢
  split at h
  · cases h
  · rename_i hc
    rw [if_neg hc]
    unfold writeFrames at h ⊢
    dsimp only at h ⊢
    have ho : ¬ ackOnly c = true := by
      unfold ackOnly; simp; omega
    rw [if_neg ho] at h ⊢
    dsimp only at h ⊢
    have hen : ∀ x, (afterPath c w s limit x pd).2 = true := by
      intro x
      unfold afterPath
      split
      · rw [hpd]; rfl
      · exact hpd
    rw [h, hen]
    unfold fullMtu
    simp [hf]

theorem ApartInv.step {c : Conn} {w : Writers} {s : Space} {rest : List Space} {st st' : St}
    (ko : KeysOk c) (hb : c.limit ≤ bound c) (b : Before (s :: rest) st)
    (sh : ∀ p ∈ st.pkts, p.long = false → p.space = .app)
    (i : ApartInv c st) (e : space c w s st = .ok st') : ApartInv c st' := by
  rcases space_cases e with h | ⟨k, h, r, a⟩
  · refine ⟨?_, ?_⟩
    · rw [h.pkts, h.ini, h.len]
      intro hl hi
      rcases h.pad with h3 | ⟨_, h3⟩
      · rw [h3]; exact i.wait hl hi
      · exact .inl h3
    · rw [h.pkts, h.ini, h.len]
      exact i.done
  · obtain ⟨b1, b2, b3⟩ := a.bounds
    -- No packet so far has a short header.
    have hlong : ∀ p ∈ st.pkts, p.long = true := by
      intro p hp
      cases hl : p.long with
      | true => rfl
      | false =>
        exfalso
        have h1 := sh p hp hl
        obtain ⟨pre, h2, h3⟩ := b
        have hm : Space.app ∈ pre := h3.mem (h1 ▸ List.mem_map_of_mem hp)
        have hp2 : (pre ++ s :: rest).Pairwise (fun a b => rank a < rank b) := by rw [h2]; decide
        rw [List.pairwise_append] at hp2
        have := hp2.2.2 _ hm s List.mem_cons_self
        cases s <;> simp [rank] at this
    have hpadded : r.padded = true → c.limit ≤ st'.len := by
      intro hp
      have hw := a.wrote
      obtain ⟨hl, hle⟩ := contents_padded (hw ▸ hp)
      have hle' : spaceLimit c s - k.expansion ≤ r.len := by rw [hw]; exact hle
      have hsp : s = .app := by
        by_contra hne
        have := ko.long hne a.key
        rw [hl] at this
        cases this
      rw [a.len]
      unfold buildLen
      rw [hsp, spaceLimit_app] at hle' b3
      omega
    refine ⟨?_, ?_⟩
    · intro _ hi
      rw [a.pad]
      rw [a.ini] at hi
      unfold track at hi ⊢
      by_cases hp : r.padded = true
      · exact .inr (hpadded hp)
      · rw [if_neg hp] at hi ⊢
        split
        · exact .inl rfl
        · rename_i hs
          rw [if_neg hs] at hi
          dsimp only at hi ⊢
          rw [if_neg]
          · rcases i.wait hlong hi with h1 | h1
            · left; rw [h1]; rfl
            · right; omega
          · intro hh
            rw [hh.2.2] at hi
            cases hi
    · intro hex hf hl hi
      rw [a.ini] at hi
      rw [a.pkts] at hex
      obtain ⟨p, hp, h1, h2⟩ := hex
      rcases List.mem_append.mp hp with h3 | h3
      · rw [hlong p h3] at h1; cases h1
      · rw [List.mem_singleton.mp h3] at h1 h2
        dsimp only at h1 h2
        have hsp : s = .app := by
          by_contra hne
          have := ko.long hne a.key
          rw [h1] at this
          cases this
        have hi' : st.initial.isSome = true := by
          unfold track at hi
          split at hi
          · exact hi
          · split at hi
            · rename_i hs
              rw [hsp] at hs
              cases hs.1
            · exact hi
        rcases i.wait hlong hi' with h4 | h4
        · apply hpadded
          have hw := a.wrote
          rw [h1] at hw
          rw [hw] at h2 ⊢
          exact contents_elicits h2 hf hl (by rw [h4]; rfl)
        · omega

theorem asRead_long {l : List Pkt} (n : Nat) (h : ∀ p ∈ l, p.long = true) :
    asRead l n = l.map Pkt.size := by
  induction l with
  | nil => rfl
  | cons p t ih =>
    unfold asRead
    rw [if_pos (h p List.mem_cons_self), ih (fun q hq => h q (List.mem_cons_of_mem _ hq))]
    rfl

theorem asRead_zero {l : List Pkt} (h : ∀ pre p post, l = pre ++ p :: post → p.long = false → post = []) :
    asRead l 0 = l.map Pkt.size := by
  induction l with
  | nil => rfl
  | cons p t ih =>
    unfold asRead
    split
    · rw [ih (fun pre q post hh hl => h (p :: pre) q post (by rw [hh]; rfl) hl)]
      rfl
    · rename_i hl
      have := h [] p t rfl (by simpa using hl)
      subst this
      rfl

/-- If the profile allows a full-size datagram and the packet with the short header (if there is
one) is ack-eliciting, the receiver finds exactly the packets that were sent.  (Without this, see
`C87_padding_joins_short`.) -/
theorem C87_readable_partial {c : Conn} {w : Writers} {d : Dgram} (ko : KeysOk c)
    (hp : ∀ p, c.probe = some p → c.limit ≤ p)
    (e : output c w = .ok (some d))
    (hs : ∀ p ∈ d.pkts, p.long = false → p.elicits = true ∧ c.limit = c.mtu ∧ 256 ≤ c.limit) :
    asRead d.pkts d.padding.length = d.pkts.map Pkt.size := by
  by_cases hl : ∀ p ∈ d.pkts, p.long = true
  · exact asRead_long _ hl
  · obtain ⟨st, e1, e2⟩ := output_ok e
    have hA : ApartInv c st := by
      refine (spaces_induct (P := fun l st => ApartInv c st ∧ Before l st ∧
        ∀ p ∈ st.pkts, p.long = false → p.space = .app) ?_ ?_ _ _ _
        ⟨⟨(by intro _ h; cases h), (by intro ⟨p, hp, _⟩; cases hp)⟩, before_init,
          (by intro p hp; cases hp)⟩ e1).1
      · intro s rest st st' ⟨h1, h2, h3⟩ _ he
        refine ⟨h1.step ko (bound_ge hp) h2 h3 he, h2.step he, ?_⟩
        rcases space_cases he with h | ⟨k, h, r, a⟩
        · rw [h.pkts]; exact h3
        · rw [a.pkts]
          intro p hp hlp
          rcases List.mem_append.mp hp with h4 | h4
          · exact h3 p h4 hlp
          · rw [List.mem_singleton.mp h4] at hlp ⊢
            by_contra hne
            have := ko.long hne a.key
            dsimp only at hlp
            rw [hlp] at this
            cases this
      · intro rest st ⟨h1, h2, h3⟩ _
        exact ⟨h1, h2.quit, h3⟩
    have hx : ∃ p ∈ d.pkts, p.long = false := by
      by_contra hn
      apply hl
      intro p hp
      cases h : p.long with
      | true => rfl
      | false => exact absurd ⟨p, hp, h⟩ hn
    obtain ⟨p, hpm, hpl⟩ := hx
    obtain ⟨s1, s2, s3⟩ := hs p hpm hpl
    obtain ⟨_, h1, _, h2⟩ := finish_cases e2
    have hpad : d.padding.length = 0 := by
      rcases h2 with ⟨_, h4, _⟩ | ⟨size, h3, h4, _⟩
      · rw [h4]; rfl
      · rw [h4, padding_length]
        have := hA.done ⟨p, h1 ▸ hpm, hpl, s1⟩ s2 s3 (by rw [h3]; rfl)
        split <;> omega
    rw [hpad]
    exact asRead_zero (fun pre p post h hl => C87_short_last ko e h hl)

/-! ## Path MTU probes -/

/-- A packet that is tagged as a path MTU probe is alone in a datagram of exactly the size probed
for. -/
theorem C87_probe {c : Conn} {w : Writers} {d : Dgram} (ko : KeysOk c)
    (hp : ∀ p, c.probe = some p → c.limit ≤ p) (hm : 256 ≤ c.mtu)
    (e : output c w = .ok (some d)) {p : Pkt} (hpm : p ∈ d.pkts) (ht : p.probe = true) :
    d.pkts = [p] ∧ p.elicits = true ∧ c.probe = some d.len := by
  obtain ⟨st, e1, e2⟩ := output_ok e
  obtain ⟨_, h1, _, h2⟩ := finish_cases e2
  have hl := dgram_len e1 e2
  have key : ∀ p ∈ st.pkts, p.probe = true → st.pkts = [p] ∧ p.elicits = true ∧
      st.initial = none ∧ c.probe = some st.len := by
    have hh := (spaces_induct (P := fun l st => (∀ p ∈ st.pkts, p.probe = true → st.pkts = [p] ∧
      p.elicits = true ∧ st.initial = none ∧ c.probe = some st.len ∧ p.space = .app) ∧
      SizeInv c st ∧ Before l st) (c := c) (w := w) ?_ ?_ [.initial, .handshake, .app] St.init st
      ⟨(by intro p hp; cases hp), sizeInv_init c, before_init⟩ e1).1
    · intro p hp ht
      obtain ⟨a1, a2, a3, a4, _⟩ := hh p hp ht
      exact ⟨a1, a2, a3, a4⟩
    · intro s rest st st' ⟨i1, i2, i3⟩ _ he
      refine ⟨?_, i2.step i3 he, i3.step he⟩
      rcases space_cases he with h | ⟨k, h, r, a⟩
      · rw [h.pkts, h.ini, h.len]; exact i1
      · obtain ⟨b1, b2, b3⟩ := a.bounds
        intro p hp ht
        rw [a.pkts] at hp
        rcases List.mem_append.mp hp with h4 | h4
        · exfalso
          obtain ⟨_, _, _, _, h5⟩ := i1 p h4 ht
          obtain ⟨pre, h6, h7⟩ := i3
          have hm : Space.app ∈ pre := h7.mem (h5 ▸ List.mem_map_of_mem h4)
          have hp2 : (pre ++ s :: rest).Pairwise (fun a b => rank a < rank b) := by rw [h6]; decide
          rw [List.pairwise_append] at hp2
          have := hp2.2.2 _ hm s List.mem_cons_self
          cases s <;> simp [rank] at this
        · have hpe := List.mem_singleton.mp h4
          have htr : r.probe = true := by rw [hpe] at ht; exact ht
          have hw := a.wrote
          have hx : isProbe c s (decide (st.len ≠ 0)) = true ∧ ackOnly c = false ∧ c.closing = false := by
            rw [hw] at htr
            unfold contents at htr
            split at htr
            · cases htr
            · rename_i hc
              unfold writeFrames at htr
              dsimp only at htr
              split at htr
              · cases htr
              · rename_i ho
                exact ⟨htr, by simpa using ho, by simpa using hc⟩
          obtain ⟨x1, x2, x3⟩ := hx
          have x1' := x1
          unfold isProbe at x1'
          simp only [Bool.and_eq_true, decide_eq_true_eq, Bool.not_eq_true', decide_eq_false_iff_not,
            ne_eq, not_not] at x1'
          obtain ⟨⟨⟨⟨⟨y1, y2⟩, y3⟩, y4⟩, y5⟩, y6⟩ := x1'
          have hfull : c.limit = c.mtu := by
            unfold fullMtu at y6
            simpa using y6
          have hnil : st.pkts = [] := by
            cases hq : st.pkts with
            | nil => rfl
            | cons q t =>
              have h8 := i2.sum
              have h9 := i2.pos q (by rw [hq]; exact List.mem_cons_self)
              rw [hq] at h8
              simp at h8
              omega
          have hshort : k.long = false := ko.app k (y2 ▸ a.key) y3
          have hel : r.elicits = true := by
            rw [hw]
            unfold contents
            rw [if_neg (by rw [x3]; simp)]
            unfold writeFrames
            dsimp only
            rw [if_neg (by rw [x2]; simp)]
            dsimp only
            have : ∀ a x, a ≤ x → a < afterData c w s (decide (st.len ≠ 0))
                (spaceLimit c s - k.expansion) x := by
              intro a x hax
              unfold afterData
              dsimp only
              rw [if_pos x1, if_pos y1]
              omega
            have hap : ∀ x pd, x ≤ (afterPath c w s (spaceLimit c s - k.expansion) x pd).1 := by
              intro x pd
              unfold afterPath
              split
              · exact Nat.le_add_right _ _
              · exact Nat.le_refl _
            rw [if_pos (this _ _ (hap _ _))]
            simpa using this _ _ (hap _ _)
          have hpad : r.padded = true := by
            rw [hshort] at hw
            rw [hw] at hel ⊢
            exact contents_elicits hel hfull (by omega) (by rw [y4]; simp)
          obtain ⟨_, hle⟩ := contents_padded (hw ▸ hpad)
          have hle' : spaceLimit c s - k.expansion ≤ r.len := by rw [hw]; exact hle
          refine ⟨by rw [a.pkts, hnil, hpe]; rfl, by rw [hpe]; exact hel, ?_, ?_, by rw [hpe]; exact y2⟩
          · rw [a.ini]
            unfold track
            rw [if_pos hpad]
            cases hi : st.initial with
            | none => rfl
            | some n =>
              exfalso
              obtain ⟨q, hq, _⟩ := i2.ini (by rw [hi]; rfl)
              rw [hnil] at hq
              cases hq
          · obtain ⟨n, hn⟩ := Option.isSome_iff_exists.mp y4
            rw [hn]
            congr 1
            have hsl : spaceLimit c s = n := by unfold spaceLimit; rw [hn]
            rw [a.len]
            have := a.len
            have hf := a.fits
            obtain ⟨g1, g2, g3, g4⟩ := header_some a.head
            unfold buildLen
            rw [hsl] at hle' hf g3 b3
            have hmax : max r.len (pnStart k h + 4) = n - k.expansion := by omega
            rw [hmax]
            omega
    · intro rest st ⟨i1, i2, i3⟩ _
      exact ⟨i1, i2, i3.quit⟩
  obtain ⟨a1, a2, a3, a4⟩ := key p (h1 ▸ hpm) ht
  refine ⟨by rw [h1]; exact a1, a2, ?_⟩
  rw [hl, a3, a4]
  simp

/-! ## SCONE, keys and coalescing -/

/-- With SCONE, a client's datagram that holds only an Initial packet ends with the two bytes of the
SCONE indication, and has exactly the size of the limit. -/
theorem C87_scone {c : Conn} {w : Writers} {d : Dgram} (ko : KeysOk c) (hn : c.probe = none)
    (hl : 2 ≤ c.limit) (hc : c.client = true) (hs : c.scone = true)
    (e : output c w = .ok (some d)) {p : Pkt} (h : d.pkts = [p]) (hi : p.space = .initial) :
    (∃ pre, d.padding = pre ++ [0xc8, 0x13]) ∧ d.len = c.limit := by
  have hp : ∀ p, c.probe = some p → c.limit ≤ p := by
    intro p h; rw [hn] at h; cases h
  have hle := (C87_size hp e).1 hn
  have hge := C87_client_initial ko hp hc e ⟨p, by rw [h]; simp, hi⟩
  refine ⟨?_, by omega⟩
  have hsz : p.size + 2 ≤ c.limit := by
    have := all_pkts (Q := fun p => p.space = .initial → p.size + 2 ≤ c.limit) ?_ e p
      (by rw [h]; simp) hi
    · exact this
    · intro s k st st' h r a hsp
      obtain ⟨b1, b2, b3⟩ := a.bounds
      dsimp only at hsp ⊢
      have : spaceLimit c s = c.limit - 2 := by
        unfold spaceLimit
        rw [hn, if_pos ⟨hsp, hs⟩]
      rw [a.len] at b2 b1
      omega
  have hpl : c.limit ≤ p.size + d.padding.length := by
    unfold Dgram.len at hge
    rw [h] at hge
    simpa using hge
  obtain ⟨st, e1, e2⟩ := output_ok e
  obtain ⟨_, _, _, h2⟩ := finish_cases e2
  have key : ∃ n, d.padding = padding true n := by
    rcases h2 with ⟨_, h4, _⟩ | ⟨size, _, h4, _⟩
    · rw [h4] at hpl
      simp at hpl
      omega
    · exact ⟨_, by rw [h4, hs]⟩
  obtain ⟨n, hn'⟩ := key
  rw [hn', padding_length] at hpl
  have h2n : 2 ≤ n := by omega
  refine ⟨List.replicate (n - 2) 0xc8, ?_⟩
  rw [hn']
  unfold padding
  rw [if_pos rfl, if_pos h2n]
  have : n - 1 = (n - 2) + 1 := by omega
  rw [this, List.replicate_succ']
  simp

/-- A client that has more CRYPTO data for Initial packets puts nothing behind an Initial packet. -/
theorem C87_more_initial {c : Conn} {w : Writers} {d : Dgram} (hc : c.client = true)
    (hm : w.more = true) (e : output c w = .ok (some d)) {p : Pkt} (hp : p ∈ d.pkts)
    (hi : p.space = .initial) : d.pkts = [p] := by
  obtain ⟨st, e1, e2⟩ := output_ok e
  obtain ⟨_, h1, _, _⟩ := finish_cases e2
  rw [h1] at hp ⊢
  have := (spaces_induct (c := c) (w := w) (P := fun l st => (∀ p ∈ st.pkts, p.space = .initial →
    st.pkts = [p] ∧ (l = [] ∨ st.stop = true)) ∧ Before l st) ?_ ?_
    [.initial, .handshake, .app] St.init st ⟨(by intro p hp; cases hp), before_init⟩ e1).1 p hp hi
  · exact this.1
  · intro s rest st st' ⟨i1, i2⟩ hst he
    refine ⟨?_, i2.step he⟩
    rcases space_cases he with h | ⟨k, h, r, a⟩
    · rw [h.pkts]
      intro p hp hi
      obtain ⟨_, h3⟩ := i1 p hp hi
      rcases h3 with h3 | h3
      · cases h3
      · rw [hst] at h3; cases h3
    · rw [a.pkts]
      intro p hp hi
      rcases List.mem_append.mp hp with h4 | h4
      · exfalso
        obtain ⟨_, h3⟩ := i1 p h4 hi
        rcases h3 with h3 | h3
        · cases h3
        · rw [hst] at h3; cases h3
      · have hpe := List.mem_singleton.mp h4
        have hs : s = .initial := by rw [hpe] at hi; exact hi
        rw [hs] at i2
        rw [i2.initial]
        refine ⟨by rw [hpe]; rfl, .inr ?_⟩
        rw [a.stop, hc, hm, hs]
        rfl
  · intro rest st ⟨i1, i2⟩ hq
    refine ⟨?_, i2.quit⟩
    intro p hp hi
    exact ⟨(i1 p hp hi).1, .inl rfl⟩

/-- A client discards its Initial keys exactly when it sends a Handshake packet; a server discards
its Handshake keys exactly when it sends a Handshake packet after the handshake is confirmed. -/
theorem C87_keys_discarded {c : Conn} {w : Writers} {d : Dgram} (e : output c w = .ok (some d)) :
    (Space.initial ∈ d.discarded ↔ c.client = true ∧ ∃ p ∈ d.pkts, p.space = .handshake) ∧
    (Space.handshake ∈ d.discarded ↔
      c.client = false ∧ c.confirmed = true ∧ ∃ p ∈ d.pkts, p.space = .handshake) ∧
    Space.app ∉ d.discarded := by
  obtain ⟨st, e1, e2⟩ := output_ok e
  obtain ⟨_, h1, h2, _⟩ := finish_cases e2
  rw [h1, h2]
  have key : st.discarded = st.pkts.flatMap (fun p => discards c p.space) := by
    refine spaces_induct (c := c) (w := w) (P := fun _ st => st.discarded =
      st.pkts.flatMap (fun p => discards c p.space)) ?_ (fun _ _ h _ => h) _ _ _ rfl e1
    intro s rest st st' h _ he
    rcases space_cases he with hh | ⟨k, h', r, a⟩
    · rw [hh.disc, hh.pkts]; exact h
    · rw [a.disc, a.pkts, List.flatMap_append, h]
      simp
  rw [key]
  simp only [List.mem_flatMap, discards]
  refine ⟨?_, ?_, ?_⟩
  · constructor
    · rintro ⟨p, hp, hm⟩
      split at hm
      · rename_i hs
        split at hm
        · rename_i hc; exact ⟨hc, p, hp, hs⟩
        · split at hm
          · simp at hm
          · cases hm
      · cases hm
    · rintro ⟨hc, p, hp, hs⟩
      exact ⟨p, hp, by rw [if_pos hs, if_pos hc]; simp⟩
  · constructor
    · rintro ⟨p, hp, hm⟩
      split at hm
      · rename_i hs
        split at hm
        · simp at hm
        · rename_i hc
          split at hm
          · rename_i hf; exact ⟨by simpa using hc, hf, p, hp, hs⟩
          · cases hm
      · cases hm
    · rintro ⟨hc, hf, p, hp, hs⟩
      exact ⟨p, hp, by rw [if_pos hs, if_neg (by rw [hc]; simp), if_pos hf]; simp⟩
  · rintro ⟨p, hp, hm⟩
    split at hm
    · split at hm
      · simp at hm
      · split at hm
        · simp at hm
        · cases hm
    · cases hm

/-! ## Sending what there is -/

/-- Room for the header of a packet, and two bytes more. -/
def needed (c : Conn) (s : Space) (k : Key) : Nat :=
  if k.long then 15 + c.dcid + c.scid + (if s = .initial then 8 + c.token else 0) else 7 + c.dcid

theorem header_fits {c : Conn} {s : Space} {k : Key} {L : Nat} (h : needed c s k ≤ L) :
    ∃ h0, header c s k 0 L = some h0 ∧ h0 + 2 ≤ needed c s k := by
  unfold needed at h
  unfold header needed
  have hv : varintLen c.token ≤ 8 := by unfold varintLen; split <;> (try split) <;> (try split) <;> omega
  by_cases hl : k.long = true
  · rw [if_pos hl] at h
    simp only [hl, if_true]
    by_cases hs : s = .initial
    · rw [if_pos hs] at h
      have g1 : 0 < L ∧ 11 + c.dcid + c.scid < L - 0 := by omega
      have g2 : ¬ (s = .initial ∧ ¬ varintLen c.token + c.token < L - (0 + 7 + c.dcid + c.scid)) := by omega
      have g3 : ¬ L - (0 + 7 + c.dcid + c.scid + (varintLen c.token + c.token)) < 6 := by omega
      rw [if_pos g1, if_neg g2]
      simp only [if_pos hs]
      rw [if_neg g3]
      exact ⟨_, rfl, by omega⟩
    · rw [if_neg hs] at h
      have g1 : 0 < L ∧ 11 + c.dcid + c.scid < L - 0 := by omega
      have g2 : ¬ (s = .initial ∧ ¬ varintLen c.token + c.token < L - (0 + 7 + c.dcid + c.scid)) := fun g => hs g.1
      have g3 : ¬ L - (0 + 7 + c.dcid + c.scid) < 6 := by omega
      rw [if_pos g1, if_neg g2]
      simp only [if_neg hs]
      rw [if_neg g3]
      exact ⟨_, rfl, by omega⟩
  · have hl : k.long = false := by simpa using hl
    rw [hl] at h ⊢
    simp only [Bool.false_eq_true, if_false] at h ⊢
    have g1 : 0 < L ∧ 5 + c.dcid < L - 0 := by omega
    have g2 : ¬ L - (0 + 1 + c.dcid) < 4 := by omega
    rw [if_pos g1, if_neg g2]
    exact ⟨_, rfl, by omega⟩

theorem contents_nonempty {c : Conn} {w : Writers} {s : Space} {long coalesced padding : Bool} {L h0 m : Nat}
    (po : Polite w) (hclose : c.closing = false) (hlim : 256 ≤ c.limit) (hprim : c.primary = true)
    (hr : h0 + 2 ≤ L) (hm : h0 + m ≤ L)
    (hd : (∀ r, m ≤ r → 0 < w.ack s r) ∨ (∀ r, m ≤ r → 0 < w.data s r) ∨ w.ping s = true) :
    h0 < (contents c w s long coalesced padding L h0).len := by
  unfold contents
  rw [if_neg (by rw [hclose]; simp)]
  unfold writeFrames
  dsimp only
  have hb := afterPath_bounds (c := c) po s padding hr
  have hb0 := afterAck_bounds (c := c) po s hr
  generalize afterPath c w s L (afterAck c w s L h0) padding = x at *
  obtain ⟨p, en⟩ := x
  dsimp only at hb ⊢
  rw [if_neg (by unfold ackOnly; simp; omega)]
  dsimp only
  have hdle : p ≤ afterData c w s coalesced L p := by
    unfold afterData
    dsimp only
    split <;> split <;> omega
  have hdlt : (∀ r, m ≤ r → 0 < w.data s r) → p = h0 → h0 < afterData c w s coalesced L p := by
    intro hx hp
    unfold afterData
    dsimp only
    rw [if_pos hprim, hp]
    split
    · omega
    · have := hx (L - h0) (by omega)
      omega
  generalize afterData c w s coalesced L p = q at *
  have hy : h0 < (if afterAck c w s L h0 < q then q else if w.ping s then q + 1 else q) := by
    rcases hd with h1 | h1 | h1
    · have h1 := h1 (L - h0) (by omega)
      have : afterAck c w s L h0 = h0 + w.ack s (L - h0) := by
        unfold afterAck; rw [if_pos hprim]
      split
      · omega
      · split <;> omega
    · by_cases hp : p = h0
      · have := hdlt h1 hp
        split
        · omega
        · split <;> omega
      · split
        · omega
        · split <;> omega
    · rw [h1]
      split
      · omega
      · simp only [if_true]; omega
  generalize (if afterAck c w s L h0 < q then q else if w.ping s then q + 1 else q) = y at *
  split <;> omega

theorem track_len {c : Conn} {s long r size st} : (track c s long r size st).len = st.len := by
  unfold track; split
  · rfl
  · split <;> rfl

theorem space_keeps_len {c : Conn} {w : Writers} {s : Space} {st st' : St} (h : 0 < st.len)
    (e : space c w s st = .ok st') : 0 < st'.len := by
  unfold space at e
  split at e
  · cases e; exact h
  · dsimp only at e
    split at e
    · cases e; exact h
    · split at e
      · cases e; exact h
      · split at e
        · cases e; exact h
        · split at e
          · cases e
          · have := congrArg St.len (Except.ok.inj e)
            dsimp only at this
            rw [← this]
            unfold buildLen
            omega

theorem spaces_keeps_len {c : Conn} {w : Writers} : ∀ {l : List Space} {st st' : St}, 0 < st.len →
    spaces c w l st = .ok st' → 0 < st'.len
  | [], _, _, h, e => by cases e; exact h
  | s :: l, st, st', h, e => by
    unfold spaces at e
    split at e
    · cases e; exact h
    · obtain ⟨st1, e1, e2⟩ := Except.bind_eq_ok.mp e
      exact spaces_keeps_len (space_keeps_len h e1) e2

/-- If there is something to send, a datagram is sent: if one of the spaces with keys has an acknowledgment or data
that can be sent in `m` bytes, or a probe, and the headers of all spaces with keys leave as much room.  It does not
matter whether the spaces before it have something to send. -/
theorem C87_progress {c : Conn} {w : Writers} {s : Space} {m : Nat} (hk : (c.keys s).isSome = true) (po : Polite w)
    (hroom : ∀ s k, c.keys s = some k → needed c s k + m ≤ spaceLimit c s - k.expansion)
    (hclose : c.closing = false) (hlim : 256 ≤ c.limit) (hprim : c.primary = true)
    (hd : (∀ r, m ≤ r → 0 < w.ack s r) ∨ (∀ r, m ≤ r → 0 < w.data s r) ∨ w.ping s = true) :
    ∃ d, output c w = .ok (some d) := by
  have key : ∀ {l : List Space} {st st' : St}, s ∈ l → st.len = 0 → st.stop = false →
      spaces c w l st = .ok st' → 0 < st'.len := by
    intro l
    induction l with
    | nil => intro st st' hm; cases hm
    | cons x l ih =>
      intro st st' hm hz hstop e
      unfold spaces at e
      rw [if_neg (by rw [hstop]; simp)] at e
      obtain ⟨st1, e1, e2⟩ := Except.bind_eq_ok.mp e
      unfold space at e1
      split at e1
      · rename_i hnone
        have hne : s ≠ x := by rintro rfl; rw [hnone] at hk; cases hk
        cases e1
        rcases List.mem_cons.mp hm with hm | hm
        · exact absurd hm hne
        · exact ih hm hz hstop e2
      · rename_i k hsome
        have hr := hroom x k hsome
        dsimp only at e1
        rw [hz] at e1
        generalize spaceLimit c x - k.expansion = L at *
        obtain ⟨h0, hh, hle⟩ := header_fits (c := c) (s := x) (k := k) (L := L) (by omega)
        rw [hh] at e1
        dsimp only at e1
        rw [if_neg (by omega)] at e1
        split at e1
        · rename_i hemp
          have hne : s ≠ x := by
            rintro rfl
            have := contents_nonempty (c := c) (w := w) (s := s) (long := k.long) (coalesced := decide ((0 : Nat) ≠ 0))
              (padding := st.pad || c.probe.isSome) (L := L) (h0 := h0) (m := m) po hclose hlim hprim (by omega) (by omega) hd
            omega
          cases e1
          rcases List.mem_cons.mp hm with hm | hm
          · exact absurd hm hne
          · refine ih hm ?_ ?_ e2
            · rfl
            · exact hstop
        · split at e1
          · cases e1
          · refine spaces_keeps_len ?_ e2
            have := congrArg St.len (Except.ok.inj e1)
            dsimp only at this
            rw [← this]
            unfold buildLen
            omega
  obtain ⟨r, hr⟩ := C87_no_error (c := c) po
  cases r with
  | some d => exact ⟨d, hr⟩
  | none =>
    exfalso
    unfold output at hr
    obtain ⟨st, e1, e2⟩ := Except.bind_eq_ok.mp hr
    have hf : finish c st = none := Except.ok.inj e2
    have hz : st.len = 0 := by
      unfold finish at hf
      split at hf
      · assumption
      · split at hf <;> cases hf
    have := key (by cases s <;> simp) rfl rfl e1
    omega

end Neqo.Asm
