import Verif.Life.Total

/-! C90: how a connection comes up. -/
namespace Neqo.Life

open Conn

/-- A step after which the handshake can be complete: the application says that the certificate is fine and TLS
completes, or a genuine packet has the last message of the handshake. -/
def Completes (op : Op) : Prop :=
  (∃ v now l f, op = .authenticated v now (some (none, l)) f) ∨
  ∃ v r now t ps init first valid fs late hv l, op = .input v r now t ps ∧
    Pkt.normal init first valid (.opened fs late hv) ∈ ps ∧ Fr.complete none l ∈ fs

/-- A genuine packet with HANDSHAKE_DONE arrives. -/
def Confirms (op : Op) : Prop :=
  ∃ v r now t ps init first valid fs late hv l, op = .input v r now t ps ∧
    Pkt.normal init first valid (.opened fs late hv) ∈ ps ∧ Fr.done l ∈ fs

theorem has_mem {q : Fr → Bool} {ps : List Pkt} (h : ps.any (Pkt.has q) = true) :
    ∃ init first valid fs late hv, Pkt.normal init first valid (.opened fs late hv) ∈ ps ∧ ∃ f ∈ fs, q f = true := by
  obtain ⟨p, hp, hq⟩ := List.any_eq_true.mp h
  cases p with
  | normal init first valid b =>
    cases b with
    | opened fs late hv =>
      obtain ⟨f, hf, hq⟩ := List.any_eq_true.mp (show fs.any q = true from hq)
      exact ⟨init, first, valid, fs, late, hv, hp, f, hf, hq⟩
    | _ => cases hq
  | _ => cases hq

theorem completes_of {op} (h : mayComplete op = true) : Completes op := by
  cases op with
  | authenticated v now r f =>
    cases r with
    | none => cases h
    | some p =>
      obtain ⟨a, l⟩ := p
      cases a with
      | none => exact .inl ⟨_, _, _, _, rfl⟩
      | some e => cases h
  | input v r now t ps =>
    obtain ⟨init, first, valid, fs, late, hv, hm, f, hf, hq⟩ := has_mem (show ps.any (Pkt.has completes) = true from h)
    cases f with
    | complete a l =>
      cases a with
      | none => exact .inr ⟨_, _, _, _, _, _, _, _, _, _, _, _, rfl, hm, hf⟩
      | some e => cases hq
    | _ => cases hq
  | _ => cases h

theorem confirms_of {op} (h : mayConfirm op = true) : Confirms op := by
  cases op with
  | input v r now t ps =>
    obtain ⟨init, first, valid, fs, late, hv, hm, f, hf, hq⟩ := has_mem (show ps.any (Pkt.has confirms) = true from h)
    cases f with
    | done l => exact ⟨_, _, _, _, _, _, _, _, _, _, _, _, rfl, hm, hf⟩
    | _ => cases hq
  | _ => cases h

theorem setState_st {c c' : Conn} {s : St} (h : c.setState s = .ok c') : c'.st = s ∨ c'.st = c.st := by
  rcases setState_ok h with ⟨_, rfl⟩ | ⟨_, rfl, _⟩
  · exact .inl rfl
  · exact .inr rfl

theorem setState_client {c c' : Conn} {s : St} (h : c.setState s = .ok c') : c'.client = c.client ∧ c'.sig = c.sig := by
  rcases setState_ok h with ⟨_, rfl⟩ | ⟨_, rfl, _⟩ <;> exact ⟨rfl, rfl⟩

/-- The connection is announced as connected only in a step in which the handshake completes. -/
theorem C90_connected {h h' : Hist} {op} (h0 : h.c.st.isConnected = false) (hs : h.step op = .ok h')
    (h1 : h'.c.st.isConnected = true) : Completes op := by
  obtain ⟨o, hstep, _⟩ := Hist.step_ok hs
  have k : Steps (fun c => c.st.isConnected = false ∨ mayComplete op = true) True (mayComplete op = true) True True := by
    refine ⟨?_, ?_, ?_, ?_, ?_, ?_, ?_, ?_, ?_, ?_⟩
    · rintro c c' s hp (hc | hc) hset
      · rcases setState_st hset with e | e
        · left; rw [e]; cases s <;> simp [St.place] at hp <;> rfl
        · left; rw [e]; exact hc
      · exact .inr hc
    · rintro c c' s hp (hc | hc) hset
      · rcases setState_st hset with e | e
        · left; rw [e]; exact closed_not_connected hp
        · left; rw [e]; exact hc
      · exact .inr hc
    · rintro c c' hg _ _ _; exact .inr hg
    · rintro c c' (⟨_, hg, _⟩ | ⟨_, _, hc⟩) hp _
      · exact .inr hg
      · rcases hp with hp | hp
        · rw [hc] at hp; cases hp
        · exact .inr hp
    · rintro c s _ _ hp; exact hp
    · rintro c _ hp; exact hp
    · rintro c _ _ hp; exact hp
    · rintro c hp; exact hp
    · rintro c hp _; exact hp
    · rintro c _ _ _; exact .inl rfl
  rcases k.step (fun _ => trivial) id (fun _ => trivial) (fun _ => trivial) (.inl h0) hstep with hh | hh
  · rw [hh] at h1; cases h1
  · exact completes_of hh

/-- For a client the handshake is confirmed only by HANDSHAKE_DONE, and only on a connection that is connected, by
that step or before. -/
theorem C90_client_confirmed {h h' : Hist} {op} (hcl : h.c.client = true) (h0 : h.c.st ≠ .confirmed)
    (hs : h.step op = .ok h') (h1 : h'.c.st = .confirmed) :
    Confirms op ∧ (h.c.st = .connected ∨ Completes op) := by
  refine ⟨?_, ?_⟩
  · obtain ⟨o, hstep, _⟩ := Hist.step_ok hs
    have k : Steps (fun c => (c.client = true ∧ c.st ≠ .confirmed) ∨ mayConfirm op = true) True True
        (mayConfirm op = true) True := by
      refine ⟨?_, ?_, ?_, ?_, ?_, ?_, ?_, ?_, ?_, ?_⟩
      · rintro c c' s hp (⟨hc, hn⟩ | hc) hset
        · refine .inl ⟨by rw [(setState_client hset).1]; exact hc, ?_⟩
          rcases setState_st hset with e | e
          · rw [e]; rintro rfl; simp [St.place] at hp
          · rw [e]; exact hn
        · exact .inr hc
      · rintro c c' s hp (⟨hc, hn⟩ | hc) hset
        · refine .inl ⟨by rw [(setState_client hset).1]; exact hc, ?_⟩
          rcases setState_st hset with e | e
          · rw [e]; rintro rfl; cases hp
          · rw [e]; exact hn
        · exact .inr hc
      · rintro c c' _ _ (⟨hc, hn⟩ | hc) hset
        · refine .inl ⟨by rw [(setState_client hset).1]; exact hc, ?_⟩
          rcases setState_st hset with e | e
          · rw [e]; nofun
          · rw [e]; exact hn
        · exact .inr hc
      · rintro c c' (⟨hf, _, _⟩ | ⟨_, hd, _⟩) hp _
        · rcases hp with ⟨hc, _⟩ | hp
          · rw [hf] at hc; cases hc
          · exact .inr hp
        · exact .inr hd
      · rintro c s _ _ hp; exact hp
      · rintro c _ hp; exact hp
      · rintro c _ _ hp; exact hp
      · rintro c hp; exact hp
      · rintro c hp _; exact hp
      · rintro c _ _ _; exact .inl ⟨rfl, nofun⟩
    rcases k.step (fun _ => trivial) (fun _ => trivial) id (fun _ => trivial) (.inl ⟨hcl, h0⟩) hstep with hh | hh
    · exact absurd h1 hh.2
    · exact confirms_of hh
  · cases hc : h.c.st.isConnected with
    | false => exact .inr (C90_connected hc hs (by rw [h1]; rfl))
    | true =>
      left
      cases hst : h.c.st <;> simp [hst, St.isConnected] at hc h0 ⊢

/-- A server confirms the handshake when it completes, and has HANDSHAKE_DONE to send then; a client is connected. -/
theorem C90_completion {c : Conn} (hc : c.st.place < 4) (hsig : c.sig = .idle) :
    (c.client = true → ∃ c', c.complete none none = .ok (c', none) ∧ c'.st = .connected ∧
      c'.told = .state .connected :: c.told ∧ c'.sig = .idle) ∧
    (c.client = false → ∃ c', c.complete none none = .ok (c', none) ∧ c'.st = .confirmed ∧
      c'.told = .state .confirmed :: .state .connected :: c.told ∧
      ∀ v now w, w.result = .ok true → w.appdata = true →
        ∃ c'', c'.output v now w = .ok (c'', .data true) ∧ c''.sig = .idle) := by
  have hn : ¬ (c.st.isConnected = true) := by rw [St.isConnected_iff]; omega
  have hset := setState_lt (c := c) (s := .connected) hc
  constructor
  · intro hcl
    refine ⟨{ c with st := .connected, told := .state .connected :: c.told }, ?_, rfl, rfl, hsig⟩
    unfold complete
    rw [if_neg hn]
    unfold setConnected
    dsimp only
    rw [hset]
    dsimp only
    rw [if_pos hcl]
    rfl
  · intro hcl
    refine ⟨{ c with st := .confirmed, sig := .done, told := .state .confirmed :: .state .connected :: c.told }, ?_, rfl,
      rfl, ?_⟩
    · unfold complete
      rw [if_neg hn]
      unfold setConnected
      dsimp only
      rw [hset]
      dsimp only
      rw [if_neg (by rw [hcl]; nofun)]
      unfold setConfirmed
      rw [setState_lt (show St.place .connected < St.place .confirmed by simp [St.place]), hsig]
      rfl
    · intro v now w h1 h2
      refine ⟨{ c with st := .confirmed, sig := .idle, told := .state .confirmed :: .state .connected :: c.told }, ?_, rfl⟩
      unfold output
      dsimp only
      rw [if_neg (by nofun), h1]
      dsimp only
      rw [if_pos (by simp [hcl, h2])]
      rfl

/-- HANDSHAKE_DONE in a packet for a server, or for a client whose handshake is not complete, is an error of the
peer. -/
theorem C90_done_refused {c : Conn} {v : Env} {now l} (h : c.client = false ∨ c.st.isConnected = false) :
    c.frame v now (.done l) = .ok (c, some protocolViolation) := by
  unfold frame
  dsimp only
  rw [if_pos]
  rcases h with h | h <;> simp [h]

/-- HANDSHAKE_DONE for a client that is connected confirms the handshake; another one changes nothing. -/
theorem C90_done_accepted {c : Conn} {v : Env} {now} (hcl : c.client = true) :
    (c.st = .connected → c.frame v now (.done none) =
      .ok ({ c with st := .confirmed, told := .state .confirmed :: c.told }, none)) ∧
    (c.st = .confirmed → c.frame v now (.done none) = .ok (c, none)) := by
  have hf : c.st.isConnected = true → c.frame v now (.done none) = c.setConfirmed none := by
    intro h
    unfold frame
    dsimp only
    rw [if_neg (by simp [hcl, h])]
  constructor
  · intro hs
    rw [hf (by rw [hs]; rfl)]
    unfold setConfirmed
    rw [setState_lt (by rw [hs]; simp [St.place])]
    rfl
  · intro hs
    rw [hf (by rw [hs]; rfl)]
    unfold setConfirmed
    have : c.setState .confirmed = .ok c := by
      unfold setState
      rw [hs]
      rfl
    rw [this]

/-! ### HANDSHAKE_DONE on the wire -/

/-- A packet with HANDSHAKE_DONE is lost only if one was sent. -/
def Plausible (h : Hist) (op : Op) : Prop := op = .doneLost → Out.data true ∈ h.sent

/-- The histories in which only packets are lost that were sent. -/
inductive Possible (client : Bool) : Hist → Prop
  | new : Possible client (Hist.new client)
  | step {h h' op} : Possible client h → Plausible h op → h.step op = .ok h' → Possible client h'

/-- Only a server has HANDSHAKE_DONE to send, and only if its handshake is confirmed. -/
def DoneInv (c : Conn) : Prop := c.sig = .done → c.client = false ∧ 4 ≤ c.st.place

theorem C90_done_inv {client h} (hp : Possible client h) :
    DoneInv h.c ∧ h.c.client = client ∧
    (Out.data true ∈ h.sent → client = false ∧ 4 ≤ h.c.st.place) := by
  induction hp with
  | new => exact ⟨nofun, rfl, nofun⟩
  | @step h h' op hp hpl hs ih =>
    obtain ⟨ih1, ih2, ih3⟩ := ih
    obtain ⟨o, hstep, _, hsent⟩ := Hist.step_ok hs
    have k : Steps (fun c => (DoneInv c ∧ c.client = client) ∧
        ((client = false ∧ 4 ≤ h.c.st.place) → 4 ≤ c.st.place)) True True True
        (client = false ∧ 4 ≤ h.c.st.place) := by
      have set : ∀ {c c' : Conn} {s : St}, ((DoneInv c ∧ c.client = client) ∧
          ((client = false ∧ 4 ≤ h.c.st.place) → 4 ≤ c.st.place)) → c.setState s = .ok c' →
          ((DoneInv c' ∧ c'.client = client) ∧ ((client = false ∧ 4 ≤ h.c.st.place) → 4 ≤ c'.st.place)) := by
        rintro c c' s ⟨⟨h1, h2⟩, h3⟩ hset
        obtain ⟨e1, e2⟩ := setState_client hset
        have hpl := (setState_place hset).1
        refine ⟨⟨fun hd => ?_, by rw [e1]; exact h2⟩, fun hq => Nat.le_trans (h3 hq) hpl⟩
        rw [e2] at hd
        rw [e1]
        exact ⟨(h1 hd).1, Nat.le_trans (h1 hd).2 hpl⟩
      refine ⟨fun _ => set, fun _ => set, fun _ _ => set, fun _ => set, ?_, ?_, ?_, ?_, ?_, ?_⟩
      · rintro c s _ hd ⟨⟨h1, h2⟩, h3⟩
        exact ⟨⟨fun hs => h1 (hd hs), h2⟩, h3⟩
      · rintro c hq ⟨⟨h1, h2⟩, h3⟩
        refine ⟨⟨fun _ => ?_, h2⟩, h3⟩
        rcases hq with ⟨hcl, ⟨_, hst⟩ | hst⟩ | hq
        · exact ⟨hcl, by show 4 ≤ c.st.place; rw [hst]; simp [St.place]⟩
        · exact ⟨hcl, by show 4 ≤ c.st.place; rw [hst]; simp [St.place]⟩
        · exact ⟨by show c.client = false; rw [h2]; exact hq.1, h3 hq⟩
      · rintro c _ _ ⟨⟨h1, h2⟩, h3⟩; exact ⟨⟨nofun, h2⟩, h3⟩
      · rintro c hp; exact hp
      · rintro c hp _; exact hp
      · rintro c ⟨⟨h1, h2⟩, h3⟩ _ hcl
        refine ⟨⟨nofun, ?_⟩, ?_⟩
        · show true = client; rw [← h2]; exact hcl.symm
        · rintro ⟨hq, _⟩
          rw [hq, hcl] at h2; cases h2
    have hk := k.step (fun _ => trivial) (fun _ => trivial) (fun _ => trivial) (fun hl => ih3 (hpl hl))
      ⟨⟨ih1, ih2⟩, fun hq => hq.2⟩ hstep
    refine ⟨hk.1.1, hk.1.2, ?_⟩
    intro hm
    rw [hsent] at hm
    rcases List.mem_cons.mp hm with hm | hm
    · subst hm
      have hout : ∀ {c c' : Conn} {v now w}, c.output v now w = .ok (c', .data true) →
          c.sig = .done ∧ c'.st = c.st ∧ c.client = false := by
        intro c c' v now w ho
        unfold output at ho
        split at ho
        · split at ho
          · cases ho
          · split at ho
            · cases ho
            · cases ho
            · split at ho <;> cases ho
        · split at ho
          · cases ho
          · split at ho
            · rename_i hcl
              have h2 : (c.sig.writeDone true).2 = true := by
                injection ho with ho; injection ho with _ ho; injection ho
              have h3 : c'.st = c.st := by
                injection ho with ho; injection ho with ho _; rw [← ho]
              refine ⟨?_, h3, ?_⟩
              · cases hs : c.sig <;> simp [hs, Sig.writeDone] at h2 ⊢
              · simp only [Bool.and_eq_true] at hcl
                simpa using hcl.1
            · cases ho
          · split at ho <;> cases ho
      cases op with
      | output v now t f l w =>
        simp only [Conn.step, processOutput] at hstep
        split at hstep
        · cases hstep
        · injection hstep with e; injection e with _ e; cases e
        · rename_i c1 hb
          obtain ⟨e1, e2, e3⟩ := hout hstep
          have hk1 := k.before ⟨⟨ih1, ih2⟩, fun hq => hq.2⟩ hb
          have := hk1.1.1 e1
          exact ⟨by rw [← hk1.1.2]; exact this.1, by rw [e2]; exact this.2⟩
      | doneLost => injection hstep with e; injection e with _ e; cases e
      | create z room => injection hstep with e; injection e with _ e; cases e
      | close v now code => obtain ⟨a, _, hb⟩ := map_eq_ok hstep; cases hb
      | authenticated v now r f => obtain ⟨a, _, hb⟩ := map_eq_ok hstep; cases hb
      | input v r now t ps => obtain ⟨a, _, hb⟩ := map_eq_ok hstep; cases hb
    · have := ih3 hm
      exact ⟨this.1, hk.2 this⟩

/-- HANDSHAKE_DONE is sent only by a server, and only after its handshake is complete. -/
theorem C90_done_sent {client h} (hp : Possible client h) (hm : Out.data true ∈ h.sent) :
    client = false ∧ 4 ≤ h.c.st.place := (C90_done_inv hp).2.2 hm

/-! ### Streams before the handshake is complete -/

/-- A client without 0-RTT cannot make streams before its handshake is complete; nobody can once the connection is
closed. -/
theorem C90_create {c : Conn} {room} :
    (c.client = true → c.st = .waitInitial ∨ c.st = .handshaking → c.create false room = (c, false)) ∧
    (∀ z, c.st.isConnected = true → (c.create z true).2 = true) ∧
    (∀ z, c.st.isClosed = true → c.create z room = (c, false)) := by
  refine ⟨?_, ?_, ?_⟩
  · rintro hcl (hs | hs) <;> simp [create, hs, hcl]
  · intro z hs
    unfold create
    cases hst : c.st <;> first | rfl | (rw [hst] at hs; cases hs)
  · intro z hs
    unfold create
    cases hst : c.st <;> first | rfl | (rw [hst] at hs; cases hs)

end Neqo.Life
