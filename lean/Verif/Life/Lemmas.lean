import Verif.Life.Model

/-! Lemmas about the life of a connection. -/
namespace Neqo.Life

namespace Error

theorem lt_irrefl (a : Error) : a.lt a = false := by simp [lt]

theorem lt_trans {a b c : Error} (h : a.lt b = true) (h' : b.lt c = true) : a.lt c = true := by
  simp only [lt, Bool.or_eq_true, Bool.and_eq_true, decide_eq_true_eq] at *
  omega

end Error

namespace Reason

theorem lt_irrefl (a : Reason) : a.lt a = false := by
  cases a <;> simp [lt, Error.lt_irrefl]

theorem lt_trans {a b c : Reason} (h : a.lt b = true) (h' : b.lt c = true) : a.lt c = true := by
  cases a <;> cases b <;> cases c <;> simp [lt] at *
  · exact Error.lt_trans h h'
  · omega

end Reason

namespace St

theorem lt_irrefl (a : St) : a.lt a = false := by
  cases a <;> simp [lt, Reason.lt_irrefl]

theorem lt_place {a b : St} (h : a.lt b = true) : a.place ≤ b.place := by
  cases a <;> cases b <;> simp [lt, place] at * 

theorem lt_trans {a b c : St} (h : a.lt b = true) (h' : b.lt c = true) : a.lt c = true := by
  have key : ∀ {r r' r'' : Reason} {t t' t'' : Nat}, (r.lt r' = true ∨ r = r' ∧ t < t') →
      (r'.lt r'' = true ∨ r' = r'' ∧ t' < t'') → (r.lt r'' = true ∨ r = r'' ∧ t < t'') := by
    rintro r r' r'' t t' t'' (h | ⟨rfl, h⟩) (h' | ⟨rfl, h'⟩)
    · exact .inl (Reason.lt_trans h h')
    · exact .inl h
    · exact .inl h'
    · exact .inr ⟨rfl, by omega⟩
  cases a <;> cases b <;> simp [lt, place] at h <;> cases c <;> simp [lt, place] at h' ⊢
  · exact key h h'
  · exact key h h'
  · exact Reason.lt_trans h h'

theorem lt_of_place {a b : St} (h : a.place < b.place) : a.lt b = true := by
  simp [lt, h]

theorem isClosed_iff (a : St) : a.isClosed = true ↔ 6 ≤ a.place := by
  cases a <;> simp [isClosed, place]

theorem isConnected_iff (a : St) : a.isConnected = true ↔ a.place = 4 ∨ a.place = 5 := by
  cases a <;> simp [isConnected, place]

theorem reason_isSome (a : St) : a.reason.isSome = a.isClosed := by
  cases a <;> rfl

end St

namespace Conn

/-- The two ways in which `setState` succeeds. -/
theorem setState_ok {c c' : Conn} {s : St} (h : c.setState s = .ok c') :
    (c.st.lt s = true ∧ c' = { c with
      st := s, streams := if s.isClosed then 0 else c.streams, told := .state s :: c.told }) ∨
    (c.st.lt s = false ∧ c' = c ∧ (s.place = c.st.place ∨ s.isClosing = true ∧ c.st.isClosed = true)) := by
  unfold setState at h
  split at h
  · rename_i h1; cases h; exact .inl ⟨h1, rfl⟩
  · rename_i h1
    have h1 : c.st.lt s = false := by simpa using h1
    split at h
    · rename_i h2; cases h; exact .inr ⟨h1, rfl, .inl h2⟩
    · split at h
      · rename_i h3; cases h
        exact .inr ⟨h1, rfl, .inr (by simpa using h3)⟩
      · cases h

theorem setState_lt {c : Conn} {s : St} (h : c.st.place < s.place) :
    c.setState s = .ok { c with
      st := s, streams := if s.isClosed then 0 else c.streams, told := .state s :: c.told } := by
  unfold setState
  rw [if_pos (St.lt_of_place h)]

/-- After `setState` the state is at least the one asked for. -/
theorem setState_place {c c' : Conn} {s : St} (h : c.setState s = .ok c') :
    c.st.place ≤ c'.st.place ∧ (s.isClosed = true → c'.st.isClosed = true) ∧
      (s.isClosed = false → s.place ≤ c'.st.place) := by
  rcases setState_ok h with ⟨h1, rfl⟩ | ⟨h1, rfl, h2⟩
  · exact ⟨St.lt_place h1, fun h => h, fun _ => Nat.le_refl _⟩
  · refine ⟨Nat.le_refl _, fun hs => ?_, fun hs => ?_⟩
    · rcases h2 with h2 | h2
      · rw [St.isClosed_iff] at *; omega
      · exact h2.2
    · rcases h2 with h2 | h2
      · omega
      · have := h2.1
        cases s <;> simp [St.isClosing, St.isClosed] at *

/-- CRYPTO data with which TLS says that the handshake is complete. -/
def completes : Fr → Bool
  | .complete none _ => true
  | _ => false

/-- HANDSHAKE_DONE. -/
def confirms : Fr → Bool
  | .done _ => true
  | _ => false

/-- What every step preserves if the changes that it is made of do: those of the state, by what is asked for, of the
signal, new streams and the new start.  `F` stands for the conditions of a stateless reset, `G` for the completion of
the handshake, `D` for HANDSHAKE_DONE and `L` for its loss. -/
structure Steps (P : Conn → Prop) (F G D L : Prop) : Prop where
  low : ∀ {c c' s}, s.place ≤ 3 → P c → c.setState s = .ok c' → P c'
  down : ∀ {c c' s}, s.isClosed = true → P c → c.setState s = .ok c' → P c'
  up : ∀ {c c'}, G → c.st.isConnected = false → P c → c.setState .connected = .ok c' → P c'
  conf : ∀ {c c'}, (c.client = false ∧ G ∧ c.st = .connected ∨ c.client = true ∧ D ∧ c.st.isConnected = true) →
    P c → c.setState .confirmed = .ok c' → P c'
  sig : ∀ {c} s, (c.sig ≠ .reset → s ≠ .reset) → (s = .done → c.sig = .done) → P c → P { c with sig := s }
  done : ∀ {c}, (c.client = false ∧ (G ∧ c.st = .connected ∨ c.st = .confirmed) ∨ L) → P c →
    P { c with sig := c.sig.handshakeDone }
  reset : ∀ {c}, F → c.st.isConnected = true → P c → P { c with sig := .reset }
  stream : ∀ {c}, P c → P { c with streams := c.streams + 1, told := .newStream :: c.told }
  local_ : ∀ {c}, P c → c.st.isClosed = false → P { c with streams := c.streams + 1 }
  restart : ∀ {c}, P c → c.st = .waitInitial → c.client = true → P (Conn.new true)

variable {P : Conn → Prop} {F G D L : Prop}

theorem close_ne {s : Sig} {r} (h : s ≠ .reset) : s.close r ≠ .reset := by
  cases s <;> simp_all [Sig.close]

theorem drain_ne {s : Sig} {r} (h : s ≠ .reset) : s.drain r ≠ .reset := by
  cases s <;> simp_all [Sig.drain]

theorem done_ne {s : Sig} (h : s ≠ .reset) : s.handshakeDone ≠ .reset := by
  cases s <;> simp_all [Sig.handshakeDone]

theorem send_ne {s : Sig} (h : s ≠ .reset) : s.sendClose ≠ .reset := by
  cases s with
  | closeSent o => cases o <;> simp [Sig.sendClose]
  | _ => simp_all [Sig.sendClose]

theorem frame_ne {s : Sig} (h : s ≠ .reset) : s.closeFrame.1 ≠ .reset := by
  cases s <;> simp_all [Sig.closeFrame]

theorem write_ne {s : Sig} {b} (h : s ≠ .reset) : (s.writeDone b).1 ≠ .reset := by
  cases s <;> cases b <;> simp_all [Sig.writeDone]

theorem close_done {s : Sig} {r} (h : s.close r = .done) : s = .done := by
  cases s <;> simp_all [Sig.close]

theorem drain_done {s : Sig} {r} (h : s.drain r = .done) : s = .done := by
  cases s <;> simp_all [Sig.drain]

theorem send_done {s : Sig} (h : s.sendClose = .done) : s = .done := by
  cases s with
  | closeSent o => cases o <;> simp [Sig.sendClose] at h
  | _ => simp_all [Sig.sendClose]

theorem frame_done {s : Sig} (h : s.closeFrame.1 = .done) : s = .done := by
  cases s <;> simp_all [Sig.closeFrame]

theorem write_done {s : Sig} {b} (h : (s.writeDone b).1 = .done) : s = .done := by
  cases s <;> cases b <;> simp_all [Sig.writeDone]

theorem Steps.capture (k : Steps P F G D L) {c c' : Conn} {v now e} (hp : P c) (h : c.capture v now e = .ok c') : P c' := by
  unfold Conn.capture at h
  split at h
  · cases h; exact hp
  · cases h; exact hp
  · cases h; exact hp
  · exact k.down rfl hp h
  · refine k.down rfl (k.sig _ ?_ ?_ hp) h
    · split
      · exact close_ne
      · exact id
    · split
      · exact close_done
      · exact id
  · refine k.down rfl (k.sig _ ?_ ?_ hp) h
    · split
      · exact close_ne
      · exact id
    · split
      · exact close_done
      · exact id
  · split at h
    · refine k.down ?_ (k.sig _ close_ne close_done hp) h
      split <;> rfl
    · exact k.down rfl hp h

theorem Steps.absorb (k : Steps P F G D L) {c c' : Conn} {v now e} (hp : P c) (h : c.absorb v now e = .ok c') : P c' := by
  cases e with
  | none => cases h; exact hp
  | some e => exact k.capture hp h

theorem Steps.close (k : Steps P F G D L) {c c' : Conn} {v now code} (hp : P c) (h : c.close v now code = .ok c') : P c' := by
  unfold Conn.close at h
  split at h
  · exact k.down rfl (k.sig _ close_ne close_done hp) h
  · exact k.down rfl hp h

theorem Steps.setConfirmed (k : Steps P F G D L) {c c' : Conn} {f e}
    (hc : c.client = false ∧ G ∧ c.st = .connected ∨ c.client = true ∧ D ∧ c.st.isConnected = true) (hp : P c)
    (h : c.setConfirmed f = .ok (c', e)) : P c' := by
  unfold Conn.setConfirmed at h
  split at h
  · cases h
  · rename_i hs; cases h; exact k.conf hc hp hs

theorem Steps.complete (k : Steps P F G D L) {c c' : Conn} {f l e} (hg : f = none → G) (hp : P c)
    (h : c.complete f l = .ok (c', e)) : P c' := by
  unfold Conn.complete at h
  split at h
  · cases h; exact hp
  · rename_i hc
    have hc : c.st.isConnected = false := by simpa using hc
    unfold Conn.setConnected at h
    split at h
    · cases h; exact hp
    · split at h
      · cases h
      · rename_i c1 hs
        have hp1 := k.up (hg rfl) hc hp hs
        have hst : c1.st = .connected := by
          rcases setState_ok hs with ⟨_, rfl⟩ | ⟨_, rfl, hh | hh⟩
          · rfl
          · have : c1.st.isConnected = true := (St.isConnected_iff _).mpr (.inl hh.symm)
            rw [this] at hc; cases hc
          · cases hh.1
        split at h
        · cases h; exact hp1
        · rename_i hcl
          have hcl : c1.client = false := by simpa using hcl
          exact k.setConfirmed (c := { c1 with sig := c1.sig.handshakeDone }) (.inl ⟨hcl, hg rfl, hst⟩)
            (k.done (.inl ⟨hcl, .inl ⟨hg rfl, hst⟩⟩) hp1) h

theorem Steps.frame (k : Steps P F G D L) {c c' : Conn} {v now f e} (hg : completes f = true → G)
    (hd : confirms f = true → D) (hp : P c)
    (h : c.frame v now f = .ok (c', e)) : P c' := by
  cases f with
  | plain => cases h; exact hp
  | stream => cases h; exact k.stream hp
  | bad e => cases h; exact hp
  | close app code =>
    unfold Conn.frame at h
    dsimp only at h
    split at h
    · cases h
    · rename_i hs; cases h; exact k.down rfl (k.sig _ drain_ne drain_done hp) hs
  | done late =>
    unfold Conn.frame at h
    dsimp only at h
    split at h
    · cases h; exact hp
    · rename_i hn
      have hn : c.client = true ∧ c.st.isConnected = true := by
        cases h1 : c.client <;> cases h2 : c.st.isConnected <;> simp [h1, h2] at hn ⊢
      exact k.setConfirmed (.inr ⟨hn.1, hd rfl, hn.2⟩) hp h
  | complete f l => exact k.complete (by rintro rfl; exact hg rfl) hp h

theorem Steps.frames (k : Steps P F G D L) {v now} : ∀ {fs : List Fr} {c c' : Conn} {e},
    (∀ f ∈ fs, completes f = true → G) → (∀ f ∈ fs, confirms f = true → D) → P c →
    c.frames v now fs = .ok (c', e) → P c'
  | [], _, _, _, _, _, hp, h => by cases h; exact hp
  | f :: fs, c, c', e, hg, hd, hp, h => by
    have hg1 := hg f List.mem_cons_self
    have hd1 := hd f List.mem_cons_self
    unfold Conn.frames at h
    split at h
    · cases h
    · rename_i h1
      split at h
      · cases h
      · rename_i h2; cases h; exact k.capture (k.frame hg1 hd1 hp h1) h2
    · rename_i h1
      exact Steps.frames k (fun f hf => hg f (List.mem_cons_of_mem _ hf))
        (fun f hf => hd f (List.mem_cons_of_mem _ hf)) (k.frame hg1 hd1 hp h1) h

theorem Steps.checkReset (k : Steps P F G D L) {c c' : Conn} {v now t first e} (hf : first = true → t = true → F) (hp : P c)
    (h : c.checkReset v now t first = .ok (c', e)) : P c' := by
  unfold Conn.checkReset at h
  split at h
  · rename_i hc
    simp only [Bool.and_eq_true] at hc
    split at h
    · cases h
    · rename_i hs; cases h; exact k.down rfl (k.reset (hf hc.1.1 hc.1.2) hc.2 hp) hs
  · cases h; exact hp

/-- The packet ends in the token. -/
def Body.token : Body → Bool
  | .failed t _ => t
  | _ => false

/-- The packet is genuine and has a frame of this kind. -/
def Body.has (q : Fr → Bool) : Body → Bool
  | .opened fs _ _ => fs.any q
  | _ => false

theorem Steps.body (k : Steps P F G D L) {c c' : Conn} {v now first b r} (hf : first = true → b.token = true → F)
    (hg : b.has completes = true → G) (hd : b.has confirms = true → D) (hp : P c)
    (h : c.body v now first b = .ok (c', r)) : P c' := by
  cases b with
  | opened fs late hv =>
    have hg : ∀ f ∈ fs, completes f = true → G := fun f hf hq => hg (List.any_eq_true.mpr ⟨f, hf, hq⟩)
    have hd : ∀ f ∈ fs, confirms f = true → D := fun f hf hq => hd (List.any_eq_true.mpr ⟨f, hf, hq⟩)
    have hpk : ∀ {c' e}, c.processPacket v now fs late = .ok (c', e) → P c' := by
      intro c' e h
      unfold Conn.processPacket at h
      split at h
      · cases h; exact hp
      · split at h
        · cases h
        · rename_i h1; cases h; exact k.frames hg hd hp h1
        · rename_i h1; cases h; exact k.frames hg hd hp h1
    unfold Conn.body at h
    dsimp only at h
    split at h
    · cases h
    · rename_i h1; cases h; exact hpk h1
    · rename_i h1
      split at h
      · cases h
      · rename_i h2; cases h
        unfold Conn.postprocess at h2
        split at h2
        · exact k.low (by cases hv <;> simp [St.place]) (hpk h1) h2
        · exact k.low (by cases hv <;> simp [St.place]) (hpk h1) h2
        · cases h2; exact hpk h1
  | again => cases h; exact hp
  | untracked => cases h; exact hp
  | pending => cases h; exact hp
  | fatal e => cases h; exact hp
  | failed t d =>
    have hd : P (if d = true then c.keysDiscarded else c) := by
      split
      · unfold Conn.keysDiscarded
        split
        · rename_i hcond
          refine k.done (.inl ?_) hp
          cases h1 : c.client <;> simp [h1] at hcond ⊢
          exact .inr hcond
        · exact hp
      · exact hp
    unfold Conn.body at h
    dsimp only at h
    split at h
    · cases h
    · rename_i h1; cases h; exact k.checkReset hf hd h1
    · rename_i h1; cases h; exact k.checkReset hf hd h1

theorem Steps.byState (k : Steps P F G D L) {c : Conn} {valid} (hp : P c) : P (c.byState valid).1 := by
  unfold Conn.byState
  split
  · exact hp
  · exact hp
  · exact k.sig _ send_ne send_done hp
  · exact hp
  · exact hp
  · exact hp

theorem Steps.preprocess (k : Steps P F G D L) {c c' : Conn} {p r} (hp : P c)
    (h : c.preprocess p = .ok (c', r)) : P c' := by
  cases p with
  | garbage => cases h; exact hp
  | «foreign» => cases h; exact hp
  | vn restart fail =>
    unfold Conn.preprocess at h
    dsimp only at h
    split at h
    · rename_i hc
      split at h
      · cases h; exact hp
      · cases h; exact hp
      · cases h; exact k.restart hp hc.1 hc.2
      · split at h
        · cases h
        · rename_i hs; cases h; exact k.down rfl hp hs
    · cases h; exact hp
  | retry fail =>
    unfold Conn.preprocess at h
    dsimp only at h
    split at h
    · split at h <;> (cases h; exact hp)
    · cases h; exact hp
  | other => cases h; exact hp
  | normal i f valid b =>
    unfold Conn.preprocess at h
    dsimp only at h
    split at h
    · split at h
      · cases h; exact hp
      · cases h; exact hp
      · split at h
        · cases h
        · rename_i hs
          have := k.byState (valid := valid) (k.low (by simp [St.place]) hp hs)
          have he := Except.ok.inj h
          rw [he] at this; exact this
    · have := k.byState (valid := valid) hp
      have he := Except.ok.inj h
      rw [he] at this; exact this

/-- The packet can be taken for a stateless reset. -/
def Pkt.token : Pkt → Bool
  | .normal _ _ _ b => b.token
  | _ => false

/-- The datagram can be taken for a stateless reset: it or its first packet ends in the token. -/
def tokenIn (t : Bool) (ps : List Pkt) : Bool := t || (ps.head?.map Pkt.token).getD false

/-- A packet of the datagram has a frame of this kind. -/
def Pkt.has (q : Fr → Bool) : Pkt → Bool
  | .normal _ _ _ b => b.has q
  | _ => false

theorem Steps.packets (k : Steps P F G D L) {v now t} : ∀ {ps : List Pkt} {first} {c c' : Conn} {e},
    (first = true → tokenIn t ps = true → F) → (ps.any (Pkt.has completes) = true → G) →
    (ps.any (Pkt.has confirms) = true → D) → P c → c.packets v now t first ps = .ok (c', e) → P c'
  | [], _, _, _, _, hf, _, _, hp, h => k.checkReset (fun a b => hf a (by simp [tokenIn, b])) hp h
  | p :: ps, first, c, c', e, hf, hg, hd, hp, h => by
    unfold Conn.packets at h
    split at h
    · cases h
    · rename_i h1; exact k.checkReset (fun a b => hf a (by simp [tokenIn, b])) (k.preprocess hp h1) h
    · rename_i h1; cases h; exact k.preprocess hp h1
    · rename_i h1; cases h; exact k.preprocess hp h1
    · rename_i h1
      have hp1 := k.preprocess hp h1
      split at h
      · rename_i b
        have hf' : first = true → b.token = true → F :=
          fun ha hb => hf ha (by simpa [tokenIn] using .inr hb)
        have hg1 : b.has completes = true → G := fun hb => hg (by simp [Pkt.has, hb])
        have hd1 : b.has confirms = true → D := fun hb => hd (by simp [Pkt.has, hb])
        split at h
        · cases h
        · rename_i h2; cases h; exact k.body hf' hg1 hd1 hp1 h2
        · rename_i h2; exact Steps.packets k (fun a => by cases a) (fun hb => hg (by simp [hb]))
            (fun hb => hd (by simp [hb])) (k.body hf' hg1 hd1 hp1 h2) h
        · rename_i h2; cases h; exact k.body hf' hg1 hd1 hp1 h2
      · cases h; exact hp1

theorem Steps.input (k : Steps P F G D L) {c c' : Conn} {v r now t ps} (hf : tokenIn t ps = true → F)
    (hg : ps.any (Pkt.has completes) = true → G) (hd : ps.any (Pkt.has confirms) = true → D) (hp : P c)
    (h : c.input v r now t ps = .ok c') : P c' := by
  unfold Conn.input at h
  split at h
  · cases h
  · rename_i h1; exact k.absorb (k.packets (fun _ => hf) hg hd hp h1) h

theorem Steps.timerRest (k : Steps P F G D L) {c c' : Conn} {v now t} (hp : P c)
    (h : c.timerRest v now t = .ok c') : P c' := by
  unfold Conn.timerRest at h
  split at h
  · exact k.down rfl hp h
  · split at h
    · cases h; exact hp
    · split at h
      · cases h
      · rename_i h1
        have hp1 := k.absorb hp h1
        split at h
        · exact k.down rfl hp1 h
        · split at h
          · exact k.capture hp1 h
          · cases h; exact hp1

theorem Steps.processTimer (k : Steps P F G D L) {c c' : Conn} {v now t} (hp : P c)
    (h : c.processTimer v now t = .ok c') : P c' := by
  unfold Conn.processTimer at h
  split at h
  · split at h
    · exact k.timerRest hp h
    · cases h
  · split at h
    · exact k.down rfl hp h
    · exact k.timerRest hp h
  · split at h
    · exact k.down rfl hp h
    · exact k.timerRest hp h
  · cases h; exact hp
  · exact k.timerRest hp h

theorem map_eq_ok {α β} {f : α → β} {x : Except Panic α} {b : β} (h : x.map f = .ok b) :
    ∃ a, x = .ok a ∧ f a = b := by
  cases x with
  | ok a => exact ⟨a, rfl, by simpa [Except.map] using h⟩
  | error e => simp [Except.map] at h

theorem Steps.before (k : Steps P F G D L) {c c' : Conn} {v now t f l} (hp : P c)
    (h : c.before v now t f l = .ok (some c')) : P c' := by
  unfold Conn.before at h
  split at h
  · obtain ⟨a, ha, hb⟩ := map_eq_ok h
    cases hb
    unfold Conn.clientStart at ha
    split at ha
    · exact k.capture hp ha
    · split at ha
      · cases ha
      · rename_i hs; exact k.absorb (k.low (by simp [St.place]) hp hs) ha
  · cases h
  · cases h
  · obtain ⟨a, ha, hb⟩ := map_eq_ok h
    cases hb
    exact k.processTimer hp ha

theorem Steps.output (k : Steps P F G D L) {c c' : Conn} {v now w o} (hp : P c)
    (h : c.output v now w = .ok (c', o)) : P c' := by
  unfold Conn.output at h
  split at h
  · split at h
    · rename_i hf; cases h; exact k.sig _ (fun hn => by have := frame_ne hn; rw [hf] at this; exact this)
        (fun hn => frame_done (by rw [hf]; exact hn)) hp
    · rename_i hf
      have hn : c.sig ≠ .reset → _ ≠ Sig.reset := fun hn => by have := frame_ne hn; rw [hf] at this; exact this
      have hm : _ = Sig.done → c.sig = .done := fun hm => frame_done (s := c.sig) (by rw [hf]; exact hm)
      split at h
      · cases h; exact k.sig _ hn hm hp
      · cases h; exact k.sig _ hn hm hp
      · split at h
        · cases h
        · rename_i hs; cases h; exact k.capture (k.sig _ hn hm hp) hs
  · split at h
    · cases h; exact hp
    · split at h
      · cases h; exact k.sig _ write_ne write_done hp
      · cases h; exact hp
    · split at h
      · cases h
      · rename_i hs; cases h; exact k.capture hp hs

theorem Steps.processOutput (k : Steps P F G D L) {c c' : Conn} {v now t f l w o} (hp : P c)
    (h : c.processOutput v now t f l w = .ok (c', o)) : P c' := by
  unfold Conn.processOutput at h
  split at h
  · cases h
  · cases h; exact hp
  · rename_i h1; exact k.output (k.before hp h1) h

theorem Steps.create (k : Steps P F G D L) {c : Conn} {z room} (hp : P c) : P (c.create z room).1 := by
  unfold Conn.create
  split <;> try exact hp
  · rename_i hs
    split
    · exact hp
    · split
      · exact k.local_ hp (by rw [hs]; rfl)
      · exact hp
  · rename_i hs
    split
    · exact hp
    · split
      · exact k.local_ hp (by rw [hs]; rfl)
      · exact hp
  · rename_i h1 h2 h3 h4 h5
    split
    · refine k.local_ hp ?_
      cases hs : c.st <;> first | rfl | (exfalso; simp_all)
    · exact hp

/-- The step can be a stateless reset. -/
def mayReset : Op → Bool
  | .input _ _ _ t ps => tokenIn t ps
  | _ => false

/-- The step can complete the handshake. -/
def mayComplete : Op → Bool
  | .authenticated _ _ (some (none, _)) _ => true
  | .input _ _ _ _ ps => ps.any (Pkt.has completes)
  | _ => false

/-- The step can confirm the handshake of a client. -/
def mayConfirm : Op → Bool
  | .input _ _ _ _ ps => ps.any (Pkt.has confirms)
  | _ => false

theorem Steps.step (k : Steps P F G D L) {c c' : Conn} {op o} (hf : mayReset op = true → F)
    (hg : mayComplete op = true → G) (hd : mayConfirm op = true → D) (hl : op = .doneLost → L) (hp : P c)
    (h : c.step op = .ok (c', o)) : P c' := by
  cases op with
  | close v now code =>
    obtain ⟨a, ha, hb⟩ := map_eq_ok h
    cases hb; exact k.close hp ha
  | authenticated v now r fail =>
    obtain ⟨a, ha, hb⟩ := map_eq_ok h
    cases hb
    unfold Conn.authenticated at ha
    split at ha
    · exact k.absorb hp ha
    · split at ha
      · cases ha
      · rename_i h1; exact k.absorb (k.complete (by rintro rfl; exact hg rfl) hp h1) ha
  | input v r now t ps =>
    obtain ⟨a, ha, hb⟩ := map_eq_ok h
    cases hb; exact k.input hf hg hd hp ha
  | output v now t f l w => exact k.processOutput hp h
  | doneLost => cases h; exact k.done (.inr (hl rfl)) hp
  | create z room => cases h; exact k.create hp

/-- What every step preserves if `setState`, changes of the signal, new streams and the new start do.  `F` stands for
the conditions of a stateless reset. -/
structure Keeps (P : Conn → Prop) (F : Prop) : Prop where
  set : ∀ {c c' s}, P c → c.setState s = .ok c' → P c'
  sig : ∀ {c} s, (c.sig ≠ .reset → s ≠ .reset) → P c → P { c with sig := s }
  reset : ∀ {c}, F → c.st.isConnected = true → P c → P { c with sig := .reset }
  stream : ∀ {c}, P c → P { c with streams := c.streams + 1, told := .newStream :: c.told }
  local_ : ∀ {c}, P c → c.st.isClosed = false → P { c with streams := c.streams + 1 }
  restart : ∀ {c}, P c → c.st = .waitInitial → c.client = true → P (Conn.new true)

theorem Keeps.step (k : Keeps P F) {c c' : Conn} {op o} (hf : mayReset op = true → F) (hp : P c)
    (h : c.step op = .ok (c', o)) : P c' :=
  Steps.step (F := F) (G := True) (D := True) (L := True)
    ⟨fun _ => k.set, fun _ => k.set, fun _ _ => k.set, fun _ => k.set, fun s h _ => k.sig s h,
      fun _ => k.sig _ done_ne, k.reset, k.stream, k.local_, k.restart⟩
    hf (fun _ => trivial) (fun _ => trivial) (fun _ => trivial) hp h

end Conn

end Neqo.Life
