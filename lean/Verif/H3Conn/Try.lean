import Verif.H3Conn.Reached

/-! Runs that can be computed, for the examples. -/

namespace Neqo.H3c

/-- A decision procedure for `Fits`. -/
def fitsB (c : C) : Ev → Bool
  | .opened id => get c.recv id == none && get c.send id == none
  | .readable id i =>
    match i.first with
    | .newStream t =>
      TypeFits id t && !isOwn c.role id &&
        (match t with
         | .wt s => match get c.sess s with
           | some x => !x.st.over
           | none => true
         | _ => true)
    | _ => true
  | .request _ (some i) _ | .createSession _ (some i) _ =>
    get c.recv i == none && get c.send i == none && !isUni i && !c.log.contains (.opened i)
  | .openStream _ (some i) =>
    get c.recv i == none && get c.send i == none && isOwn c.role i && !c.log.contains (.opened i)
  | .state _ (some u) | .resume _ (some u) => isUni u
  | _ => true

theorem fitsB_sound {c : C} {e : Ev} (q : Bool) (h : fitsB c e = true) : Fits q c e := by
  cases e with
  | opened id => unfold fitsB at h; simp at h; exact h
  | readable id i =>
    intro t ht
    unfold fitsB at h
    dsimp only at h
    rw [ht] at h
    simp only [Bool.and_eq_true, Bool.not_eq_true'] at h
    refine ⟨h.1.1, h.1.2, ?_⟩
    intro s x hs hx _
    rw [hs] at h
    have h2 := h.2
    dsimp only at h2
    rw [hx] at h2
    simpa using h2
  | request w id bad =>
    cases id with
    | none => trivial
    | some i =>
      unfold fitsB at h
      simp at h
      exact ⟨h.1.1.1, h.1.1.2, h.1.2, h.2⟩
  | createSession w id bad =>
    cases id with
    | none => trivial
    | some i =>
      unfold fitsB at h
      simp at h
      exact ⟨h.1.1.1, h.1.1.2, h.1.2, h.2⟩
  | openStream w id =>
    cases id with
    | none => trivial
    | some i =>
      unfold fitsB at h
      simp at h
      exact ⟨h.1.1.1, h.1.1.2, h.1.2, h.2⟩
  | state t u =>
    cases u with
    | none => trivial
    | some i => exact h
  | resume t u =>
    cases u with
    | none => trivial
    | some i => exact h
  | _ => trivial

/-- All events of a run fit. -/
def fitsAll (c : C) : List Ev → Bool
  | [] => true
  | e :: t => fitsB c e && fitsAll (step c e) t

theorem reach_run {q : Bool} {r : Role} {wt udp : Bool} (es : List Ev) : ∀ {c : C},
    Reach q r wt udp c → fitsAll c es = true → Reach q r wt udp (run c es) := by
  induction es with
  | nil => intro c h _; exact h
  | cons e t ih =>
    intro c h hf
    unfold fitsAll at hf
    rw [Bool.and_eq_true] at hf
    exact ih (h.step e (fitsB_sound q hf.1)) hf.2

/-- Settings of a peer that allows everything. -/
def sets : Sets := ⟨16384, 4096, 16, 1, 1, 1⟩

/-- A readable stream: what the first and the second read come to. -/
def rd (id : Nat) (first : Read) (second : Read := .pending) : Ev :=
  .readable id ⟨first, second, fun _ => .pending, true, .ok true⟩

/-- A client that is connected, with the three streams of its peer and the settings. -/
def upC : List Ev :=
  [.state .connected (some 2), .opened 3, rd 3 (.newStream .control) (.frames [.settings sets]),
   .opened 7, rd 7 (.newStream .encoder), .opened 11, rd 11 (.newStream .decoder)]

/-- A server, likewise. -/
def upS : List Ev :=
  [.state .connected (some 3), .opened 2, rd 2 (.newStream .control) (.frames [.settings sets]),
   .opened 6, rd 6 (.newStream .encoder), .opened 10, rd 10 (.newStream .decoder)]

/-- A client with two requests and a session that has started. -/
def busyC : List Ev :=
  upC ++ [.request .fetch (some 0) none, .request .fetch (some 4) none,
    .createSession false (some 8) none, rd 8 (.sess ⟨none, some ⟨false, false, some 200⟩, false, none, false⟩),
    .openStream 8 (some 12), .opened 15, rd 15 (.newStream (.wt 8))]

/-- A client after some events. -/
def client (es : List Ev) : C := run (init .client true true) es

/-- A server after some events. -/
def server (es : List Ev) : C := run (init .server true true) es

theorem client_reach (es : List Ev) (h : fitsAll (init .client true true) es = true) :
    Reach true .client true true (client es) := reach_run es .init h

theorem server_reach (es : List Ev) (h : fitsAll (init .server true true) es = true) :
    Reach true .server true true (server es) := reach_run es .init h

example : fitsAll (init .client true true) busyC = true := by decide +kernel
example : fitsAll (init .server true true) upS = true := by decide +kernel
example : (client busyC).recv = [(15, .wt 8), (12, .wt 8), (8, .session), (4, .http), (0, .http),
    (11, .decoder), (7, .encoder), (3, .control)] := by decide +kernel
example : (client busyC).st = .connected ∧ (client busyC).dead = false ∧
    (client busyC).remote = .received sets := by decide +kernel
example : (client busyC).log = [.state .connected, .negotiated false true, .negotiated true true,
    .opened 0, .opened 4, .opened 8, .sessionStart 8, .opened 12, .sessionStream 8 15,
    .readable 15] := by decide +kernel

end Neqo.H3c
