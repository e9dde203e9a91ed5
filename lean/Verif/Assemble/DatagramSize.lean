import Verif.Assemble.Model
import Verif.Sender.Dgram

/-!
# How long a datagram of the application may be

`Connection::max_datagram_size` tells the application how long a datagram may be so that it
fits into a packet.  The datagram itself is written later, into whatever room the packet has
then (`Verif.Sender.Dgram`); if the packet counts as empty and the datagram does not fit, it is
dropped.
-/
namespace Neqo.Asm

/-- `usize::MAX` -/
def unlimited : Nat := 18446744073709551615

/-- `Connection::max_datagram_size` (connection/mod.rs:4074-4109); `remote` is what the peer
accepts (quic_datagrams.rs:88-94).  `none` is the error `NotAvailable`.  That the path is the
primary one is taken for granted. -/
def maxDatagramSize (c : Conn) (remote : Nat) : Option Nat :=
  if remote = 0 then none
  else
    match c.keys .app with
    | none => none
    | some k => some (min (c.mtu - (k.expansion + (header c .app k 0 unlimited).getD 0 + 1)) remote)

/-- Where `write_appdata_frames` starts in a packet that begins at `len`
(connection/mod.rs:2797-2837, 2547-2574): the room, and the number of tokens.  An ACK frame
comes with a token (tracking.rs:505-512), PATH_CHALLENGE and PATH_RESPONSE come without
(path.rs:853-905).  `none`: there is no such packet, or it may only have ACK frames. -/
def appRoom (c : Conn) (w : Writers) (len : Nat) (padding : Bool) : Option (Nat × Nat) :=
  match c.keys .app with
  | none => none
  | some k =>
    match header c .app k len (spaceLimit c .app - k.expansion) with
    | none => none
    | some h =>
      if spaceLimit c .app - k.expansion < h + 2 ∨ ackOnly c = true ∨ c.primary = false ∨ c.closing = true then none
      else
        some (spaceLimit c .app - k.expansion - (afterPath c w .app (spaceLimit c .app - k.expansion)
            (afterAck c w .app (spaceLimit c .app - k.expansion) h) padding).1,
          if w.ack .app (spaceLimit c .app - k.expansion - h) = 0 then 0 else 1)

/-! ## Proofs -/

theorem header_unlimited {c : Conn} {k : Key} {limit h : Nat} (hs : header c .app k 0 limit = some h)
    (hl : limit ≤ unlimited) : header c .app k 0 unlimited = some h := by
  unfold header at hs ⊢
  generalize unlimited = u at hl ⊢
  cases hk : k.long with
  | true =>
    simp only [hk, if_true, reduceCtorEq, false_and, if_false] at hs ⊢
    split at hs
    · rename_i h1
      split at hs
      · cases hs
      · rename_i h2
        rw [if_pos ⟨by omega, by omega⟩, if_neg (by omega)]
        exact hs
    · cases hs
  | false =>
    simp only [hk, Bool.false_eq_true, if_false] at hs ⊢
    split at hs
    · rename_i h1
      split at hs
      · cases hs
      · rename_i h2
        rw [if_pos ⟨by omega, by omega⟩, if_neg (by omega)]
        exact hs
    · cases hs

/-- In a packet that counts as empty only if `m + 1` bytes are left, no datagram of at most `m`
bytes is dropped. -/
theorem write_not_tooBig {m : Nat} : ∀ (q : List Dg.Item) (rem tokens : Nat) (q' : List Dg.Item)
    (l : List (Dg.Item × Dg.Fate)), (∀ i ∈ q, i.data.length ≤ m) → (tokens = 0 → m + 1 ≤ rem) →
    Dg.write q rem tokens = .ok (q', l) → ∀ x ∈ l, x.2 ≠ .tooBig
  | [], _, _, q', l, _, _, h => by
    cases h
    intro x hx
    cases hx
  | d :: ds, rem, tokens, q', l, hq, ht, h => by
    unfold Dg.write at h
    split at h
    · cases h
    · rename_i w fill hw
      split at h
      · cases h
      · rename_i q1 l1 h1
        cases h
        intro x hx
        rcases List.mem_cons.mp hx with rfl | hx
        · intro hc; cases hc
        · exact write_not_tooBig ds _ _ _ _ (fun i hi => hq i (by simp [hi])) (fun h0 => by omega) h1 x hx
    · rename_i hw
      split at h
      · rename_i h0
        exfalso
        have h1 := ht h0
        have h2 := hq d (by simp)
        unfold Frm.writeDatagram at hw
        rw [if_pos (show d.data.length + 1 ≤ rem by omega)] at hw
        obtain ⟨n, _, hw⟩ := Except.bind_eq_ok.mp hw
        split at hw
        · obtain ⟨e, _, hw⟩ := Except.bind_eq_ok.mp hw
          obtain ⟨v, _, hw⟩ := Except.bind_eq_ok.mp hw
          cases hw
        · obtain ⟨e, _, hw⟩ := Except.bind_eq_ok.mp hw
          cases hw
      · cases h
        intro x hx
        cases hx

/-- Room in a packet of its own with the full MTU. -/
theorem appRoom_own {c : Conn} {w : Writers} {remote m room tokens : Nat} {pad : Bool}
    (hm : maxDatagramSize c remote = some m) (hl : c.limit = c.mtu) (hu : c.mtu ≤ unlimited)
    (hp : c.probe = none) (hpath : ∀ r, (w.path r).1 = 0)
    (hr : appRoom c w 0 pad = some (room, tokens)) (ht : tokens = 0) (h1 : 1 ≤ m) : m + 1 ≤ room := by
  unfold maxDatagramSize at hm
  split at hm
  · cases hm
  · unfold appRoom at hr
    cases hk : c.keys .app with
    | none => simp only [hk] at hr; cases hr
    | some k =>
      simp only [hk] at hm hr
      have hsl : spaceLimit c .app = c.mtu := by simp [spaceLimit, hp, hl]
      rw [hsl] at hr
      cases hh : header c .app k 0 (c.mtu - k.expansion) with
      | none => simp only [hh] at hr; cases hr
      | some h =>
        simp only [hh] at hr
        rw [header_unlimited hh (by omega), Option.getD_some] at hm
        split at hr
        · cases hr
        · injection hr with hr
          injection hr with hr1 hr2
          injection hm with hm
          have hack : afterAck c w .app (c.mtu - k.expansion) h = h := by
            unfold afterAck
            split
            · rw [ht] at hr2
              split at hr2
              · rename_i e; rw [e]; rfl
              · cases hr2
            · rfl
          have hpa : (afterPath c w .app (c.mtu - k.expansion) h pad).1 = h := by
            unfold afterPath
            split
            · show h + (w.path _).1 = h
              rw [hpath]; rfl
            · rfl
          rw [hack, hpa] at hr1
          omega

/-- C111: a datagram that is not longer than the size the application was told is accepted. -/
theorem C111_accepted {c : Conn} {q : Dg.Q} {m : Nat} (hm : maxDatagramSize c q.remoteSize = some m)
    (i : Dg.Item) (hi : i.data.length ≤ m) : (q.add i).2.1 ≠ .tooMuchData := by
  unfold maxDatagramSize at hm
  split at hm
  · cases hm
  · split at hm
    · cases hm
    · injection hm with hm
      unfold Dg.Q.add
      rw [if_neg (by omega)]
      split
      · split
        · intro h; cases h
        · intro h; cases h
      · intro h; cases h

/-- C111: an application is told a size exactly if the peer takes datagrams and there are keys for
them. -/
theorem C111_told_when (c : Conn) (remote : Nat) :
    (∃ m, maxDatagramSize c remote = some m) ↔ remote ≠ 0 ∧ c.keys .app ≠ none := by
  unfold maxDatagramSize
  by_cases hr : remote = 0
  · simp [hr]
  · rw [if_neg hr]
    cases hk : c.keys .app <;> simp [hr]

/-- C111: datagrams that are not longer than the size the application was told are not dropped as
too long, if the packet is the first of its UDP datagram, the whole MTU may be used, and no path
is being validated.  `used` and `more`: what other frames have been put into the packet before,
and their tokens.  Missing: the other cases, where they are dropped
(`C111_dropped_for_little_window`, `C111_dropped_behind_handshake`,
`C111_dropped_beside_path_response`). -/
theorem C111_not_dropped_partial {c : Conn} {w : Writers} {remote m room tokens used more : Nat} {pad : Bool}
    (hm : maxDatagramSize c remote = some m) (h1 : 1 ≤ m) (hl : c.limit = c.mtu) (hu : c.mtu ≤ unlimited)
    (hp : c.probe = none) (hpath : ∀ r, (w.path r).1 = 0) (hr : appRoom c w 0 pad = some (room, tokens))
    (hmore : more = 0 → used = 0) (q q' : List Dg.Item) (hq : ∀ i ∈ q, i.data.length ≤ m)
    (l : List (Dg.Item × Dg.Fate)) (h : Dg.write q (room - used) (tokens + more) = .ok (q', l)) :
    ∀ x ∈ l, x.2 ≠ .tooBig := by
  refine write_not_tooBig q _ _ q' l hq (fun h0 => ?_) h
  have := appRoom_own hm hl hu hp hpath hr (by omega) h1
  have := hmore (by omega)
  omega

/-- C111: and if nothing else is in the packet, the first of them is in it. -/
theorem C111_sent_partial {c : Conn} {w : Writers} {remote m room : Nat} {pad : Bool}
    (hm : maxDatagramSize c remote = some m) (h1 : 1 ≤ m) (hl : c.limit = c.mtu) (hu : c.mtu ≤ unlimited)
    (hp : c.probe = none) (hpath : ∀ r, (w.path r).1 = 0) (hr : appRoom c w 0 pad = some (room, 0))
    (d : Dg.Item) (q q' : List Dg.Item) (hd : d.data.length ≤ m) (l : List (Dg.Item × Dg.Fate))
    (h : Dg.write (d :: q) room 0 = .ok (q', l)) :
    ∃ wire l', l = (d, .written wire) :: l' ∧ d.data <:+ wire := by
  have hroom := appRoom_own hm hl hu hp hpath hr rfl h1
  unfold Dg.write at h
  have hw : ∀ x, Frm.writeDatagram room d.data = .ok x → ∃ e fill, x = some (e ++ d.data, fill) := by
    intro x hx
    unfold Frm.writeDatagram at hx
    rw [if_pos (show d.data.length + 1 ≤ room by omega)] at hx
    obtain ⟨n, _, hx⟩ := Except.bind_eq_ok.mp hx
    split at hx
    · obtain ⟨e, _, hx⟩ := Except.bind_eq_ok.mp hx
      obtain ⟨v, hv, hx⟩ := Except.bind_eq_ok.mp hx
      cases hx
      unfold Frm.evv at hv
      cases hvv : Neqo.Codec.encodeVvec d.data with
      | none => simp only [hvv] at hv; cases hv
      | some y =>
        simp only [hvv] at hv
        cases hv
        unfold Neqo.Codec.encodeVvec at hvv
        simp only [Option.map_eq_some_iff] at hvv
        obtain ⟨z, _, rfl⟩ := hvv
        exact ⟨e ++ z, false, by simp⟩
    · obtain ⟨e, _, hx⟩ := Except.bind_eq_ok.mp hx
      cases hx
      exact ⟨e, _, rfl⟩
  split at h
  · cases h
  · rename_i wi fill hwd
    obtain ⟨e, f, he⟩ := hw _ hwd
    cases he
    split at h
    · cases h
    · cases h
      exact ⟨_, _, rfl, List.suffix_append _ _⟩
  · rename_i hwd
    obtain ⟨e, f, he⟩ := hw _ hwd
    cases he

/-! ## What is missing, and examples -/

/-- A client with 1-RTT keys and an MTU of 1280 bytes, and Handshake keys. -/
def exDgConn (limit : Nat) : Conn :=
  ⟨true, true, false, true, false, 8, 8, 0, limit, 1280, none, fun s => match s with
    | .initial => none
    | .handshake => some ⟨true, 16, 1⟩
    | .app => some ⟨false, 16, 2⟩, false⟩

/-- Nothing but the data of Handshake packets, and path frames. -/
def exDgWriters (hs path : Nat) : Writers :=
  ⟨fun _ _ => 0, fun _ => (path, decide (path ≠ 0)), fun s _ => if s = .handshake then hs else 0,
    fun _ => false, fun _ _ => 0, false⟩

/-- The application is told 1252 bytes; a datagram of that length fills a packet. -/
example : maxDatagramSize (exDgConn 1280) 65535 = some 1252 ∧
    appRoom (exDgConn 1280) (exDgWriters 0 0) 0 false = some (1253, 0) ∧
    (match Dg.write [⟨List.replicate 1252 7, some 1⟩] 1253 0 with
      | .ok ([], [(_, .written w)]) => decide (w.length = 1253)
      | _ => false) = true := by
  refine ⟨by decide, by decide, by decide +kernel⟩

/-- C111, what is missing: when the congestion window has some room but less than a packet, the
limit for the packet is that room, and the datagram is dropped as too long, for good. -/
theorem C111_dropped_for_little_window : ∃ cwnd m room d,
    let c := exDgConn (profileLimit false cwnd unlimited 1280 false false)
    maxDatagramSize c 65535 = some m ∧ d.data.length ≤ m ∧
      appRoom c (exDgWriters 0 0) 0 false = some (room, 0) ∧
      Dg.write [d] room 0 = .ok ([], [(d, .tooBig)]) := by
  refine ⟨600, 1252, 573, ⟨List.replicate 1000 7, some 1⟩, by decide, by decide +kernel, by decide, by decide +kernel⟩

/-- C111, what is missing: behind a Handshake packet in the same UDP datagram there is less room,
and the datagram is dropped as too long. -/
theorem C111_dropped_behind_handshake : ∃ st m room d,
    let c := exDgConn 1280
    spaces c (exDgWriters 300 0) [.initial, .handshake] St.init = .ok st ∧
      maxDatagramSize c 65535 = some m ∧ d.data.length ≤ m ∧
      appRoom c (exDgWriters 300 0) st.len st.pad = some (room, 0) ∧
      Dg.write [d] room 0 = .ok ([], [(d, .tooBig)]) := by
  refine ⟨_, 1252, 911, ⟨List.replicate 1000 7, some 1⟩, rfl, by decide, by decide +kernel, by decide,
    by decide +kernel⟩

/-- C111, what is missing: an answer to a PATH_CHALLENGE, which the peer can send at any time, is
in the packet without a token: the packet counts as empty, and the datagram is dropped. -/
theorem C111_dropped_beside_path_response : ∃ m room d,
    let c := exDgConn 1280
    maxDatagramSize c 65535 = some m ∧ d.data.length ≤ m ∧
      appRoom c (exDgWriters 0 9) 0 false = some (room, 0) ∧
      Dg.write [d] room 0 = .ok ([], [(d, .tooBig)]) := by
  refine ⟨1252, 1244, ⟨List.replicate 1252 7, some 1⟩, by decide, by decide +kernel, by decide, by decide +kernel⟩

end Neqo.Asm
