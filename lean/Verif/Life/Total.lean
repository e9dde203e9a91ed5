import Verif.Life.Props

/-! C89: no step panics, except where the handshake completes on a connection that is closed. -/
namespace Neqo.Life

open Conn

/-- A frame after which the connection is closed. -/
def closes : Fr → Bool
  | .close .. => true
  | _ => false

/-- No CRYPTO data that completes the handshake follows a CONNECTION_CLOSE in the same packet, and the application
does not complete the handshake of a connection that is closed. -/
def Calm (c : Conn) : Op → Prop
  | .authenticated _ _ (some (none, _)) _ => c.st.isClosed = false
  | .input _ _ _ _ ps => ∀ init first valid fs late hv, Pkt.normal init first valid (.opened fs late hv) ∈ ps →
      fs.Pairwise (fun a b => closes a = true → completes b = false)
  | _ => True

theorem setState_total {c : Conn} {s : St} (h : c.st.place ≤ s.place ∨ s.isClosing = true) :
    ∃ c', c.setState s = .ok c' := by
  unfold setState
  split
  · exact ⟨_, rfl⟩
  · rename_i h1
    split
    · exact ⟨_, rfl⟩
    · rename_i h2
      split
      · exact ⟨_, rfl⟩
      · rename_i h3
        exfalso
        have hnlt : ¬ c.st.place < s.place := fun hlt => h1 (St.lt_of_place hlt)
        rcases h with h | h
        · omega
        · apply h3
          have h6 : 6 ≤ s.place := by cases s <;> simp [St.isClosing, St.place] at *
          have : c.st.isClosed = true := (St.isClosed_iff _).mpr (by omega)
          simp [h, this]

theorem place_le (s : St) : s.place ≤ 8 := by cases s <;> simp [St.place]

theorem setClosed_total (c : Conn) (r) : ∃ c', c.setState (.closed r) = .ok c' :=
  setState_total (.inl (place_le _))

theorem setClosing_total (c : Conn) (r t) : ∃ c', c.setState (.closing r t) = .ok c' := setState_total (.inr rfl)

theorem setDraining_total (c : Conn) (r t) : ∃ c', c.setState (.draining r t) = .ok c' := setState_total (.inr rfl)

theorem capture_total (c : Conn) (v now e) : ∃ c', c.capture v now e = .ok c' := by
  unfold capture
  split
  · exact ⟨_, rfl⟩
  · exact ⟨_, rfl⟩
  · exact ⟨_, rfl⟩
  · exact setClosed_total _ _
  · exact setClosed_total _ _
  · exact setClosed_total _ _
  · split
    · split
      · exact setClosed_total _ _
      · exact setClosing_total _ _ _
    · exact setClosed_total _ _

theorem absorb_total (c : Conn) (v now e) : ∃ c', c.absorb v now e = .ok c' := by
  cases e with
  | none => exact ⟨_, rfl⟩
  | some e => exact capture_total c v now e

theorem close_total (c : Conn) (v now code) : ∃ c', c.close v now code = .ok c' := by
  unfold Conn.close
  split
  · exact setClosing_total _ _ _
  · exact setClosed_total _ _

theorem setConfirmed_total {c : Conn} {f} (h : c.st.place ≤ 5) : ∃ r, c.setConfirmed f = .ok r := by
  unfold setConfirmed
  obtain ⟨c', h'⟩ := setState_total (c := c) (s := .confirmed) (.inl h)
  rw [h']
  exact ⟨_, rfl⟩

theorem complete_total {c : Conn} {f l} (h : f = none → c.st.isClosed = false) : ∃ r, c.complete f l = .ok r := by
  unfold complete
  split
  · exact ⟨_, rfl⟩
  · rename_i hc
    unfold setConnected
    split
    · exact ⟨_, rfl⟩
    · have hcl := h rfl
      have hp : c.st.place < 4 := by
        have h1 : ¬ 6 ≤ c.st.place := by
          intro h6; rw [(St.isClosed_iff _).mpr h6] at hcl; cases hcl
        have h2 : ¬ (c.st.place = 4 ∨ c.st.place = 5) := fun h => hc ((St.isConnected_iff _).mpr h)
        omega
      rw [setState_lt (show c.st.place < St.place .connected from hp)]
      dsimp only
      split
      · exact ⟨_, rfl⟩
      · exact setConfirmed_total (show 4 ≤ 5 by omega)

theorem frame_total {c : Conn} {v now} {f : Fr} (h : completes f = true → c.st.isClosed = false) :
    ∃ r, c.frame v now f = .ok r := by
  cases f with
  | plain => exact ⟨_, rfl⟩
  | stream => exact ⟨_, rfl⟩
  | bad e => exact ⟨_, rfl⟩
  | close app code =>
    unfold frame
    dsimp only
    obtain ⟨c', h'⟩ := setDraining_total
      { c with sig := c.sig.drain (.transport (if app then peerApplication code else peer code)) }
      (.transport (if app then peerApplication code else peer code)) (now + v.pto * 3)
    rw [h']
    exact ⟨_, rfl⟩
  | done late =>
    unfold frame
    dsimp only
    split
    · exact ⟨_, rfl⟩
    · rename_i hn
      have : c.st.isConnected = true := by
        cases hh : c.st.isConnected
        · exact absurd (by simp [hh]) hn
        · rfl
      apply setConfirmed_total
      rw [St.isConnected_iff] at this
      omega
  | complete f l =>
    refine complete_total ?_
    rintro rfl
    exact h rfl

theorem frame_open {c c' : Conn} {v now f} (hc : c.st.isClosed = false) (hf : closes f = false)
    (h : c.frame v now f = .ok (c', none)) : c'.st.isClosed = false := by
  have set : ∀ {c c' : Conn} {s : St}, c.st.isClosed = false → s.isClosed = false → c.setState s = .ok c' →
      c'.st.isClosed = false := by
    intro c c' s h1 h2 h3
    rcases setState_ok h3 with ⟨_, rfl⟩ | ⟨_, rfl, _⟩
    · exact h2
    · exact h1
  have conf : ∀ {c c' : Conn} {f e}, c.st.isClosed = false → c.setConfirmed f = .ok (c', e) → c'.st.isClosed = false := by
    intro c c' f e h1 h2
    unfold setConfirmed at h2
    split at h2
    · cases h2
    · rename_i h3; cases h2; exact set h1 rfl h3
  cases f with
  | plain => cases h; exact hc
  | stream => cases h; exact hc
  | bad e => cases h
  | close app code => cases hf
  | done late =>
    unfold frame at h
    dsimp only at h
    split at h
    · cases h
    · exact conf hc h
  | complete f l =>
    have h : c.complete f l = .ok (c', none) := h
    unfold complete at h
    split at h
    · cases h; exact hc
    · unfold setConnected at h
      split at h
      · cases h
      · split at h
        · cases h
        · rename_i h3
          have hc1 := set hc rfl h3
          split at h
          · cases h; exact hc1
          · refine conf ?_ h
            exact hc1

theorem frames_total {v : Env} {now} : ∀ {fs : List Fr} {c : Conn},
    ((∀ f ∈ fs, completes f = false) ∨
      c.st.isClosed = false ∧ fs.Pairwise (fun a b => closes a = true → completes b = false)) →
    ∃ r, c.frames v now fs = .ok r
  | [], _, _ => ⟨_, rfl⟩
  | f :: fs, c, h => by
    have h1 : completes f = true → c.st.isClosed = false := by
      intro hf
      rcases h with h | h
      · rw [h f List.mem_cons_self] at hf; cases hf
      · exact h.1
    obtain ⟨r, hr⟩ := frame_total (v := v) (now := now) h1
    obtain ⟨c', e⟩ := r
    unfold Conn.frames
    rw [hr]
    cases e with
    | some e =>
      obtain ⟨c'', h2⟩ := capture_total c' v now e
      dsimp only
      rw [h2]
      exact ⟨_, rfl⟩
    | none =>
      dsimp only
      apply frames_total
      rcases h with h | ⟨hc, h⟩
      · exact .inl fun f hf => h f (List.mem_cons_of_mem _ hf)
      · obtain ⟨h2, h3⟩ := List.pairwise_cons.mp h
        cases hf : closes f with
        | true => exact .inl fun g hg => h2 g hg hf
        | false => exact .inr ⟨frame_open hc hf hr, h3⟩

theorem checkReset_total (c : Conn) (v now t f) : ∃ r, c.checkReset v now t f = .ok r := by
  unfold checkReset
  split
  · obtain ⟨c', h⟩ := setDraining_total { c with sig := .reset } (.transport statelessReset) (now + v.pto * 3)
    rw [h]
    exact ⟨_, rfl⟩
  · exact ⟨_, rfl⟩

theorem postprocess_total (c : Conn) (hv) : ∃ c', c.postprocess hv = .ok c' := by
  unfold postprocess
  split
  · rename_i hs
    apply setState_total; left; rw [hs]; cases hv <;> simp [St.place]
  · rename_i hs
    apply setState_total; left; rw [hs]; cases hv <;> simp [St.place]
  · exact ⟨_, rfl⟩

theorem body_total {c : Conn} {v now first} {b : Body} (hc : c.st.isClosed = false)
    (h : ∀ fs late hv, b = .opened fs late hv → fs.Pairwise (fun a b => closes a = true → completes b = false)) :
    ∃ r, c.body v now first b = .ok r := by
  unfold body
  split
  · rename_i fs late hv
    have : ∃ r, c.processPacket v now fs late = .ok r := by
      unfold processPacket
      split
      · exact ⟨_, rfl⟩
      · obtain ⟨⟨c', e⟩, hr⟩ := frames_total (v := v) (now := now) (.inr ⟨hc, h fs late hv rfl⟩)
        rw [hr]
        cases e <;> exact ⟨_, rfl⟩
    obtain ⟨⟨c', e⟩, hr⟩ := this
    rw [hr]
    cases e with
    | some e => exact ⟨_, rfl⟩
    | none =>
      obtain ⟨c'', h2⟩ := postprocess_total c' hv
      dsimp only
      rw [h2]
      exact ⟨_, rfl⟩
  · exact ⟨_, rfl⟩
  · exact ⟨_, rfl⟩
  · exact ⟨_, rfl⟩
  · exact ⟨_, rfl⟩
  · rename_i token discarded
    obtain ⟨⟨c', e⟩, hr⟩ := checkReset_total (if discarded = true then c.keysDiscarded else c) v now token first
    rw [hr]
    cases e <;> exact ⟨_, rfl⟩

theorem byState_go {c c' : Conn} {valid} (h : c.byState valid = (c', .go)) : c'.st.isClosed = false := by
  unfold byState at h
  split at h
  · cases h
  · rename_i hs; cases h; rw [hs]; rfl
  · cases h
  · cases h
  · cases h
  · rename_i h1 h2 h3 h4 h5
    have : c' = c := by injection h with h _; exact h.symm
    rw [this]
    cases hs : c.st <;> first | rfl | simp_all

theorem preprocess_total (c : Conn) (p : Pkt) : ∃ r, c.preprocess p = .ok r ∧ (r.2 = .go → r.1.st.isClosed = false) := by
  unfold preprocess
  split
  · exact ⟨_, rfl, nofun⟩
  · exact ⟨_, rfl, nofun⟩
  · split
    · split
      · exact ⟨_, rfl, nofun⟩
      · exact ⟨_, rfl, nofun⟩
      · exact ⟨_, rfl, nofun⟩
      · obtain ⟨c', h⟩ := setClosed_total c (.transport versionNegotiation)
        rw [h]
        exact ⟨_, rfl, nofun⟩
    · exact ⟨_, rfl, nofun⟩
  · split
    · split
      · exact ⟨_, rfl, nofun⟩
      · exact ⟨_, rfl, nofun⟩
    · exact ⟨_, rfl, nofun⟩
  · exact ⟨_, rfl, nofun⟩
  · rename_i initial first valid b
    split
    · rename_i hs
      split
      · exact ⟨_, rfl, nofun⟩
      · exact ⟨_, rfl, nofun⟩
      · obtain ⟨c', h⟩ := setState_total (c := c) (s := .waitInitial) (.inl (by rw [hs.1]; simp [St.place]))
        rw [h]
        exact ⟨_, rfl, fun hg => byState_go (valid := valid) (by rw [← hg])⟩
    · exact ⟨_, rfl, fun hg => byState_go (valid := valid) (by rw [← hg])⟩

theorem packets_total {v : Env} {now t} : ∀ {ps : List Pkt} {c : Conn} {first},
    (∀ init fst valid fs late hv, Pkt.normal init fst valid (.opened fs late hv) ∈ ps →
      fs.Pairwise (fun a b => closes a = true → completes b = false)) →
    ∃ r, c.packets v now t first ps = .ok r
  | [], c, first, _ => checkReset_total c v now t first
  | p :: ps, c, first, h => by
    obtain ⟨⟨c', r⟩, h1, h2⟩ := preprocess_total c p
    unfold Conn.packets
    rw [h1]
    cases r with
    | next => exact checkReset_total c' v now t first
    | stop => exact ⟨_, rfl⟩
    | fail e => exact ⟨_, rfl⟩
    | go =>
      dsimp only
      split
      · rename_i init fst valid b
        obtain ⟨⟨c'', e, g⟩, h3⟩ := body_total (v := v) (now := now) (first := first) (b := b) (h2 rfl)
          (fun fs late hv hb => h init fst valid fs late hv (by rw [hb]; exact List.mem_cons_self))
        rw [h3]
        cases e with
        | some e => exact ⟨_, rfl⟩
        | none =>
          cases g with
          | false => exact ⟨_, rfl⟩
          | true =>
            exact packets_total (fun init fst valid fs late hv hm => h init fst valid fs late hv (List.mem_cons_of_mem _ hm))
      · exact ⟨_, rfl⟩

theorem timerRest_total (c : Conn) (v now t) : ∃ c', c.timerRest v now t = .ok c' := by
  unfold timerRest
  split
  · exact setClosed_total _ _
  · split
    · exact ⟨_, rfl⟩
    · obtain ⟨c', h⟩ := absorb_total c v now t.keys
      rw [h]
      dsimp only
      split
      · exact setClosed_total _ _
      · split
        · exact capture_total _ _ _ _
        · exact ⟨_, rfl⟩

theorem before_total (c : Conn) (v now t f l) : ∃ r, c.before v now t f l = .ok r := by
  have map : ∀ {e : Except Panic Conn}, (∃ c, e = .ok c) → ∃ r, e.map some = .ok r := by
    rintro _ ⟨c, rfl⟩; exact ⟨_, rfl⟩
  unfold before
  split
  · rename_i hs _
    apply map
    unfold clientStart
    split
    · exact capture_total _ _ _ _
    · obtain ⟨c', h⟩ := setState_total (c := c) (s := .waitInitial) (.inl (by rw [hs]; simp [St.place]))
      rw [h]
      exact absorb_total _ _ _ _
  · exact ⟨_, rfl⟩
  · exact ⟨_, rfl⟩
  · rename_i h1 h2 h3
    apply map
    unfold processTimer
    split
    · rename_i hs
      split
      · exact timerRest_total _ _ _ _
      · rename_i hcl
        exact absurd (by simpa using hcl) (h3 hs)
    · split
      · exact setClosed_total _ _
      · exact timerRest_total _ _ _ _
    · split
      · exact setClosed_total _ _
      · exact timerRest_total _ _ _ _
    · exact ⟨_, rfl⟩
    · exact timerRest_total _ _ _ _

theorem output_total (c : Conn) (v now w) : ∃ r, c.output v now w = .ok r := by
  have cap : ∀ (c : Conn) e, ∃ r, (match c.capture { v with path := true } now e with
      | .error p => .error p
      | .ok c => .ok (c, Out.none) : Except Panic (Conn × Out)) = .ok r := by
    intro c e
    obtain ⟨c', h⟩ := capture_total c { v with path := true } now e
    rw [h]
    exact ⟨_, rfl⟩
  unfold output
  split
  · split
    · exact ⟨_, rfl⟩
    · split
      · exact ⟨_, rfl⟩
      · exact ⟨_, rfl⟩
      · exact cap _ _
  · split
    · exact ⟨_, rfl⟩
    · split <;> exact ⟨_, rfl⟩
    · exact cap _ _

/-- Partial: no step fails an assertion, in whatever order datagrams, calls and timers come, except where the
handshake completes on a connection that is closed.  That it never does is false, see `C89_completion_panics` and
`C89_completion_after_close_panics`. -/
theorem C89_no_panic_partial {h : Hist} {op} (hcalm : Calm h.c op) : ∃ h', h.step op = .ok h' := by
  have : ∃ r, h.c.step op = .ok r := by
    cases op with
    | close v now code =>
      obtain ⟨c', h'⟩ := close_total h.c v now code
      exact ⟨(c', .none), by simp only [Conn.step, h']; rfl⟩
    | authenticated v now r fail =>
      have : ∃ c', h.c.authenticated v now r fail = .ok c' := by
        unfold Conn.authenticated
        split
        · exact absorb_total _ _ _ _
        · rename_i f l
          obtain ⟨⟨c', e⟩, h'⟩ := complete_total (c := h.c) (f := f) (l := l) (by rintro rfl; exact hcalm)
          rw [h']
          exact absorb_total _ _ _ _
      obtain ⟨c', h'⟩ := this
      exact ⟨(c', .none), by simp only [Conn.step, h']; rfl⟩
    | input v r now token ps =>
      have : ∃ c', h.c.input v r now token ps = .ok c' := by
        unfold Conn.input
        obtain ⟨⟨c', e⟩, h'⟩ := packets_total (v := v) (now := r) (t := token) (c := h.c) (first := true) hcalm
        rw [h']
        exact absorb_total _ _ _ _
      obtain ⟨c', h'⟩ := this
      exact ⟨(c', .none), by simp only [Conn.step, h']; rfl⟩
    | output v now t f l w =>
      simp only [Conn.step, Conn.processOutput]
      obtain ⟨r, h'⟩ := before_total h.c v now t f l
      rw [h']
      cases r with
      | none => exact ⟨_, rfl⟩
      | some c => exact output_total c v now w
    | doneLost => exact ⟨_, rfl⟩
    | create z room => exact ⟨_, rfl⟩
  obtain ⟨⟨c', o⟩, h'⟩ := this
  unfold Hist.step
  rw [h']
  exact ⟨_, rfl⟩

end Neqo.Life
