import Verif.Common.SendData

/-!
# Requests of the HTTP/0.9 server: C128

The server of `neqo-bin` for HTTP/0.9: requests come in pieces and end with the stream; the responses are sent as the
streams have room.
-/
namespace Neqo.Http09
open Neqo.Codec Neqo.SendData

/-! ## The model -/

/-- `HttpStreamState` (neqo-bin/src/server/http09.rs:32-35). -/
structure WriteState where
  writable : Bool := false
  data : Option SendData := none

/-- `HttpServer` (neqo-bin/src/server/http09.rs:37-43): the maps are keyed by stream IDs. The server of the transport is
not modelled, and the buffer is always large enough for one read, as `stream_recv` takes what fits. -/
structure Srv where
  write : Nat → Option WriteState := fun _ => none
  read : Nat → Option Bytes := fun _ => none

def set (f : Nat → Option α) (i : Nat) (v : Option α) : Nat → Option α := fun j => if j = i then v else f j

/-- What the server does on a connection. -/
inductive Out where
  /-- The bytes that `stream_send` took. -/
  | sent (b : Bytes)
  | closeSend
  | resetSend
  | stopSending
deriving Repr, DecidableEq

/-- `save_partial` (neqo-bin/src/server/http09.rs:72-83). -/
def savePartial (s : Srv) (id : Nat) (partial_ : Bytes) : Srv × List Out :=
  if partial_.length < 4096 then ({ s with read := set s.read id (some partial_) }, []) else (s, [.stopSending])

/-- `stream_writable` (neqo-bin/src/server/http09.rs:161-189); `rs` is what `stream_send` replies. If there is no reply left
(`Res.noReply`), which cannot happen in the code, it stops as if there were no room. -/
def streamWritable (s : Srv) (id : Nat) (rs : List Reply) : Srv × List Out :=
  match s.write id with
  | none => (s, [])
  | some w =>
    match w.data with
    | none => ({ s with write := set s.write id (some { w with writable := true }) }, [])
    | some d =>
      let r := send d rs
      let out := Out.sent (taken r.2.2)
      match r.1 with
      | .closed => ({ s with write := set s.write id none }, [out])
      | .done => ({ s with write := set s.write id none }, [out, .closeSend])
      | _ => ({ s with write := set s.write id (some { writable := false, data := some r.2.1 }) }, [out])

/-- `stream_readable` (neqo-bin/src/server/http09.rs:102-159) for streams that the client opened in both directions; `b` and
`fin` are what `stream_recv` gives. `resp` stands for `parse_path` (89-100) and the response for the path (146-147). -/
def streamReadable (resp : Bytes → Option SendData) (s : Srv) (id : Nat) (b : Bytes) (fin : Bool) (rs : List Reply) :
    Srv × List Out :=
  if b = [] ∧ fin = false then (s, [])
  else
    let buf := (s.read id).getD [] ++ b
    let s := { s with read := set s.read id none }
    if fin = false then savePartial s id buf
    else if buf = [] then ({ s with write := set s.write id none }, [])
    else
      match resp buf with
      | none => ({ s with write := set s.write id none }, [.resetSend])
      | some r =>
        let w := (s.write id).getD {}
        let w := match w.data with
          | none => { w with data := some r }
          | some _ => w
        let s := { s with write := set s.write id (some w) }
        if w.writable then streamWritable s id rs else (s, [])

/-- Events of connections: new streams, streams with something to read, and streams with room. -/
inductive Ev where
  | newStream
  | readable (b : Bytes) (fin : Bool) (rs : List Reply)
  | writable (rs : List Reply)

/-- One event of `process_events` (neqo-bin/src/server/http09.rs:217-238), on a stream of a connection. The connection only
says where the output goes. -/
def step (resp : Bytes → Option SendData) (s : Srv) (id : Nat) : Ev → Srv × List Out
  | .newStream => ({ s with write := set s.write id (some ((s.write id).getD {})) }, [])
  | .readable b fin rs => streamReadable resp s id b fin rs
  | .writable rs => streamWritable s id rs

/-- Events with connection and stream, and what is done for each of them. -/
def run (resp : Bytes → Option SendData) (s : Srv) : List (Nat × Nat × Ev) → Srv × List (Nat × Nat × List Out)
  | [] => (s, [])
  | (c, id, e) :: l =>
    let r := step resp s id e
    let q := run resp r.1 l
    (q.1, (c, id, r.2) :: q.2)

/-! ## The specification -/

/-- What has come of the request on a stream of a connection. -/
def requestOf (c id : Nat) (l : List (Nat × Nat × Ev)) : Bytes :=
  (l.map fun x => match x with
    | (k, i, .readable b _ _) => if k = c ∧ i = id then b else []
    | _ => []).flatten

/-- No other connection uses the ID of the stream. -/
def OnlyOn (c id : Nat) (l : List (Nat × Nat × Ev)) : Prop := ∀ x ∈ l, x.2.1 = id → x.1 = c

/-- The same for the streams of that ID on all connections; used in proofs only. -/
def request (id : Nat) (l : List (Nat × Nat × Ev)) : Bytes :=
  (l.map fun x => match x with
    | (_, i, .readable b _ _) => if i = id then b else []
    | _ => []).flatten

/-- The stream has not ended. -/
def Open (id : Nat) (l : List (Nat × Nat × Ev)) : Prop := ∀ c b rs, (c, id, Ev.readable b true rs) ∉ l

/-- After the end of a stream there is only room to send. -/
def Ended (id : Nat) (l : List (Nat × Nat × Ev)) : Prop := ∀ c e, (c, id, e) ∈ l → ∃ rs, e = .writable rs

/-- All that was sent on a stream. -/
def sentOn (id : Nat) (l : List (Nat × Nat × List Out)) : Bytes :=
  (l.map fun x => if x.2.1 = id then (x.2.2.map fun o => match o with | .sent b => b | _ => []).flatten else []).flatten

/-- The end of a stream was sent. -/
def closedOn (id : Nat) (l : List (Nat × Nat × List Out)) : Prop := ∃ c o, (c, id, o) ∈ l ∧ .closeSend ∈ o

/-- The stream was not stopped by the client: `stream_send` does not fail. -/
def Unstopped (id : Nat) (l : List (Nat × Nat × Ev)) : Prop := ∀ c rs, (c, id, Ev.writable rs) ∈ l → .err ∉ rs

/-! ## Lemmas -/

theorem set_same {f : Nat → Option α} {i : Nat} {v : Option α} : set f i v i = v := if_pos rfl
theorem set_other {f : Nat → Option α} {i j : Nat} {v : Option α} (h : j ≠ i) : set f i v j = f j := if_neg h

theorem writable_frame {s : Srv} {i id : Nat} {rs : List Reply} (h : id ≠ i) :
    (streamWritable s i rs).1.write id = s.write id ∧ (streamWritable s i rs).1.read = s.read := by
  unfold streamWritable
  split
  · exact ⟨rfl, rfl⟩
  · split
    · exact ⟨set_other h, rfl⟩
    · dsimp only
      split <;> exact ⟨set_other h, rfl⟩

/-- Other streams are not touched. -/
theorem step_frame {resp : Bytes → Option SendData} {s : Srv} {i id : Nat} {e : Ev} (h : id ≠ i) :
    (step resp s i e).1.write id = s.write id ∧ (step resp s i e).1.read id = s.read id := by
  cases e with
  | newStream => exact ⟨set_other h, rfl⟩
  | writable rs => exact ⟨(writable_frame h).1, congrFun (writable_frame h).2 id⟩
  | readable b fin rs =>
    show (streamReadable resp s i b fin rs).1.write id = _ ∧ (streamReadable resp s i b fin rs).1.read id = _
    unfold streamReadable
    split
    · exact ⟨rfl, rfl⟩
    · dsimp only
      split
      · unfold savePartial
        split
        · exact ⟨rfl, by dsimp only; rw [set_other h, set_other h]⟩
        · exact ⟨rfl, set_other h⟩
      · split
        · exact ⟨set_other h, set_other h⟩
        · split
          · exact ⟨set_other h, set_other h⟩
          · split
            · refine ⟨(writable_frame h).1.trans (set_other h), ?_⟩
              rw [(writable_frame h).2]
              exact set_other h
            · exact ⟨set_other h, set_other h⟩

theorem run_append {resp : Bytes → Option SendData} : ∀ {l m : List (Nat × Nat × Ev)} {s : Srv},
    run resp s (l ++ m) = ((run resp (run resp s l).1 m).1, (run resp s l).2 ++ (run resp (run resp s l).1 m).2)
  | [], m, s => rfl
  | (c, id, e) :: l, m, s => by simp only [List.cons_append, run, run_append (l := l)]

/-- Before the end of the stream the request is collected, and there is no response. -/
def Collecting (s : Srv) (id : Nat) (b : Bytes) : Prop := (s.read id).getD [] = b ∧ ∀ w, s.write id = some w → w.data = none

theorem collect_step {resp : Bytes → Option SendData} {s : Srv} {id : Nat} {acc : Bytes} (h : Collecting s id acc) :
    (∀ {e : Ev}, (∀ b f rs, e ≠ .readable b f rs) → Collecting (step resp s id e).1 id acc ∧
      (step resp s id e).2 = []) ∧
    (∀ {b : Bytes} {rs : List Reply}, (acc ++ b).length < 4096 →
      Collecting (step resp s id (.readable b false rs)).1 id (acc ++ b) ∧
      (step resp s id (.readable b false rs)).2 = []) := by
  obtain ⟨h1, h2⟩ := h
  constructor
  · intro e he
    cases e with
    | newStream =>
      refine ⟨⟨h1, fun w hw => ?_⟩, rfl⟩
      simp only [step, set_same, Option.some.injEq] at hw
      cases hs : s.write id with
      | none => rw [hs] at hw; rw [← hw]; rfl
      | some w' => rw [hs] at hw; rw [← hw]; exact h2 w' hs
    | readable b f rs => exact absurd rfl (he b f rs)
    | writable rs =>
      show Collecting (streamWritable s id rs).1 id acc ∧ (streamWritable s id rs).2 = []
      unfold streamWritable
      cases hs : s.write id with
      | none => exact ⟨⟨h1, h2⟩, rfl⟩
      | some w =>
        dsimp only
        rw [h2 w hs]
        dsimp only
        refine ⟨⟨h1, fun w' hw => ?_⟩, rfl⟩
        dsimp only at hw
        rw [set_same] at hw
        cases hw
        rfl
  · intro b rs hl
    show Collecting (streamReadable resp s id b false rs).1 id (acc ++ b) ∧ (streamReadable resp s id b false rs).2 = []
    unfold streamReadable
    by_cases hb : b = []
    · rw [if_pos ⟨hb, rfl⟩]
      exact ⟨⟨by rw [h1, hb, List.append_nil], h2⟩, rfl⟩
    · rw [if_neg (fun x => hb x.1)]
      dsimp only
      rw [if_pos rfl, h1]
      unfold savePartial
      rw [if_pos hl]
      refine ⟨⟨by dsimp only; rw [set_same]; rfl, h2⟩, rfl⟩

theorem collect_run {resp : Bytes → Option SendData} {id : Nat} : ∀ {l : List (Nat × Nat × Ev)} {s : Srv} {acc : Bytes},
    Collecting s id acc → Open id l → (acc ++ request id l).length < 4096 →
    Collecting (run resp s l).1 id (acc ++ request id l) ∧ ∀ c o, (c, id, o) ∈ (run resp s l).2 → o = []
  | [], s, acc, h, _, _ => ⟨by simpa [request, run] using h, by intro c o ho; cases ho⟩
  | (c, i, e) :: l, s, acc, h, ho, hl => by
    have ho' : Open id l := fun c b rs hm => ho c b rs (.tail _ hm)
    have key : ∀ {acc' : Bytes}, acc' ++ request id l = acc ++ request id ((c, i, e) :: l) →
        Collecting (step resp s i e).1 id acc' → (i = id → (step resp s i e).2 = []) →
        Collecting (run resp s ((c, i, e) :: l)).1 id (acc ++ request id ((c, i, e) :: l)) ∧
          ∀ c' o, (c', id, o) ∈ (run resp s ((c, i, e) :: l)).2 → o = [] := by
      intro acc' ha hc hs
      rw [← ha] at hl ⊢
      obtain ⟨k1, k2⟩ := collect_run (resp := resp) hc ho' hl
      refine ⟨k1, ?_⟩
      intro c' o ho
      rcases List.mem_cons.mp ho with ho | ho
      · injection ho with _ ho
        injection ho with hi ho
        rw [ho]
        exact hs hi.symm
      · exact k2 c' o ho
    by_cases hi : i = id
    · subst hi
      cases e with
      | readable b f rs =>
        have hf : f = false := by
          cases f with
          | false => rfl
          | true => exact absurd (.head _) (ho c b rs)
        subst hf
        have hr : request i ((c, i, .readable b false rs) :: l) = b ++ request i l := by simp [request]
        have hlen : (acc ++ b).length < 4096 := by
          rw [hr] at hl
          simp only [List.length_append] at hl ⊢
          omega
        have := (collect_step (resp := resp) h).2 (rs := rs) hlen
        exact key (by rw [hr, List.append_assoc]) this.1 fun _ => this.2
      | newStream =>
        have := (collect_step (resp := resp) h).1 (e := .newStream) (by simp)
        exact key (by simp [request]) this.1 fun _ => this.2
      | writable rs =>
        have := (collect_step (resp := resp) h).1 (e := .writable rs) (by simp)
        exact key (by simp [request]) this.1 fun _ => this.2
    · have fr := step_frame (resp := resp) (s := s) (e := e) (fun x => hi x.symm : id ≠ i)
      refine key (acc' := acc) ?_ ⟨by rw [fr.2]; exact h.1, fun w hw => h.2 w (by rw [← fr.1]; exact hw)⟩ fun x => absurd x hi
      cases e <;> simp [request, hi]

/-- The response is being sent, or nothing is left to do. -/
def Sending (s : Srv) (id : Nat) (whole acc : Bytes) : Prop :=
  acc <+: whole ∧ ∀ w, s.write id = some w → ∃ d, w.data = some d ∧ After whole acc d

theorem sending_writable {s : Srv} {id : Nat} {whole acc : Bytes} {rs : List Reply} (h : Sending s id whole acc) :
    Sending (streamWritable s id rs).1 id whole (acc ++ sentOn id [(c, id, (streamWritable s id rs).2)]) ∧
    (.closeSend ∈ (streamWritable s id rs).2 → acc ++ sentOn id [(c, id, (streamWritable s id rs).2)] = whole) := by
  unfold streamWritable
  cases hs : s.write id with
  | none => exact ⟨by simpa [sentOn] using h, by simp⟩
  | some w =>
    obtain ⟨d, hd, ha⟩ := h.2 w hs
    dsimp only
    rw [hd]
    dsimp only
    obtain ⟨k1, k2, k3⟩ := C127_in_order ha rs
    split
    · refine ⟨⟨by simpa [sentOn] using k2, fun w hw => ?_⟩, by simp⟩
      dsimp only at hw
      rw [set_same] at hw
      cases hw
    · rename_i hr
      refine ⟨⟨by simpa [sentOn] using k2, fun w hw => ?_⟩, fun _ => by simpa [sentOn] using k3.mp hr⟩
      dsimp only at hw
      rw [set_same] at hw
      cases hw
    · refine ⟨⟨by simpa [sentOn] using k2, fun w hw => ?_⟩, by simp⟩
      dsimp only at hw
      rw [set_same] at hw
      cases hw
      refine ⟨_, rfl, ?_⟩
      have := After.call rs ha
      simpa [sentOn] using this

theorem sentOn_cons {id : Nat} {x : Nat × Nat × List Out} {l : List (Nat × Nat × List Out)} :
    sentOn id (x :: l) = sentOn id [x] ++ sentOn id l := by simp [sentOn]

theorem sending_run {resp : Bytes → Option SendData} {id : Nat} {whole : Bytes} : ∀ {l : List (Nat × Nat × Ev)} {s : Srv} {acc : Bytes},
    Sending s id whole acc → Ended id l → acc ++ sentOn id (run resp s l).2 <+: whole ∧
    (closedOn id (run resp s l).2 → acc ++ sentOn id (run resp s l).2 = whole)
  | [], s, acc, h, _ => ⟨by simpa [run, sentOn] using h.1, by rintro ⟨c, o, ho, -⟩; cases ho⟩
  | (c, i, e) :: l, s, acc, h, he => by
    have he' : Ended id l := fun c e hm => he c e (.tail _ hm)
    have hrun : (run resp s ((c, i, e) :: l)).2 = (c, i, (step resp s i e).2) :: (run resp (step resp s i e).1 l).2 := rfl
    rw [hrun, sentOn_cons]
    by_cases hi : i = id
    · subst hi
      obtain ⟨rs, rfl⟩ := he c e (.head _)
      obtain ⟨k1, k2⟩ := sending_writable (c := c) (rs := rs) h
      obtain ⟨m1, m2⟩ := sending_run (resp := resp) k1 he'
      rw [← List.append_assoc]
      refine ⟨m1, ?_⟩
      rintro ⟨c', o, ho, hc⟩
      rcases List.mem_cons.mp ho with ho | ho
      · injection ho with _ ho
        injection ho with _ ho
        subst ho
        have e1 := k2 hc
        obtain ⟨t, ht⟩ := m1
        have := congrArg List.length ht
        have e2 := congrArg List.length e1
        simp only [List.length_append] at this e2
        have : (sentOn i (run resp (streamWritable s i rs).1 l).2).length = 0 := by omega
        have e3 := List.length_eq_zero_iff.mp this
        show acc ++ sentOn i [(c, i, (streamWritable s i rs).2)] ++ sentOn i (run resp (streamWritable s i rs).1 l).2 = whole
        rw [e3, List.append_nil]
        exact e1
      · exact m2 ⟨c', o, ho, hc⟩
    · have fr := step_frame (resp := resp) (s := s) (e := e) (fun x => hi x.symm : id ≠ i)
      have hn : sentOn id [(c, i, (step resp s i e).2)] = [] := by simp [sentOn, hi]
      rw [hn, List.nil_append]
      obtain ⟨m1, m2⟩ := sending_run (resp := resp) (s := (step resp s i e).1) (acc := acc)
        ⟨h.1, fun w hw => h.2 w (by rw [← fr.1]; exact hw)⟩ he'
      refine ⟨m1, ?_⟩
      rintro ⟨c', o, ho, hc⟩
      rcases List.mem_cons.mp ho with ho | ho
      · injection ho with _ ho
        injection ho with ho _
        exact absurd ho.symm hi
      · exact m2 ⟨c', o, ho, hc⟩

theorem request_only {c id : Nat} : ∀ {l : List (Nat × Nat × Ev)}, OnlyOn c id l → request id l = requestOf c id l
  | [], _ => rfl
  | (k, i, e) :: l, h => by
    have ih := request_only (fun x hx => h x (.tail _ hx) : OnlyOn c id l)
    unfold request requestOf at ih ⊢
    rw [List.map_cons, List.map_cons, List.flatten_cons, List.flatten_cons, ih]
    congr 1
    cases e with
    | readable b f rs =>
      dsimp only
      by_cases hi : i = id
      · rw [if_pos hi, if_pos ⟨h _ (.head _) hi, hi⟩]
      · rw [if_neg hi, if_neg (fun x => hi x.2)]
    | _ => rfl

theorem quiet {id : Nat} : ∀ {q : List (Nat × Nat × List Out)}, (∀ c o, (c, id, o) ∈ q → o = []) → sentOn id q = []
  | [], _ => rfl
  | (c, i, o) :: q, h => by
    rw [sentOn_cons, quiet (fun c o ho => h c o (.tail _ ho)), List.append_nil]
    by_cases hi : i = id
    · subst hi
      rw [h c o (.head _)]
      simp [sentOn]
    · simp [sentOn, hi]

theorem sentOn_append {id : Nat} {q r : List (Nat × Nat × List Out)} : sentOn id (q ++ r) = sentOn id q ++ sentOn id r := by
  simp [sentOn]

/-- The end of the request starts the response. -/
theorem end_step {resp : Bytes → Option SendData} {s : Srv} {c id : Nat} {acc b whole : Bytes} {rs : List Reply} {r : SendData}
    (h : Collecting s id acc) (hne : acc ++ b ≠ []) (hr : resp (acc ++ b) = some r) (ha : After whole [] r) :
    Sending (streamReadable resp s id b true rs).1 id whole (sentOn id [(c, id, (streamReadable resp s id b true rs).2)]) ∧
    (.closeSend ∈ (streamReadable resp s id b true rs).2 →
      sentOn id [(c, id, (streamReadable resp s id b true rs).2)] = whole) := by
  unfold streamReadable
  rw [if_neg (by simp)]
  dsimp only
  rw [if_neg (by simp), h.1, if_neg hne, hr]
  dsimp only
  have hd : ((s.write id).getD {}).data = none := by
    cases hs : s.write id with
    | none => rfl
    | some w => exact h.2 w hs
  rw [hd]
  dsimp only
  have hS : ∀ s' : Srv, s'.write id = some { (s.write id).getD {} with data := some r } → Sending s' id whole [] := by
    intro s' h'
    refine ⟨List.nil_prefix, fun w hw => ?_⟩
    rw [h'] at hw
    cases hw
    exact ⟨r, rfl, ha⟩
  split
  · have := sending_writable (c := c) (rs := rs) (hS { s with write := set s.write id _, read := set s.read id none } set_same)
    simpa using this
  · refine ⟨?_, by simp⟩
    have := hS { s with write := set s.write id _, read := set s.read id none } set_same
    simpa [sentOn] using this

/-- The response is kept, at the place up to which it was sent. -/
def Live (s : Srv) (id : Nat) (whole acc : Bytes) : Prop :=
  ∃ w d, s.write id = some w ∧ w.data = some d ∧ After whole acc d

theorem live_writable {s : Srv} {c id : Nat} {whole acc : Bytes} {rs : List Reply} (h : Live s id whole acc) (hn : .err ∉ rs) :
    Live (streamWritable s id rs).1 id whole (acc ++ sentOn id [(c, id, (streamWritable s id rs).2)]) ∨
      .closeSend ∈ (streamWritable s id rs).2 := by
  obtain ⟨w, d, hs, hd, ha⟩ := h
  unfold streamWritable
  rw [hs]
  dsimp only
  rw [hd]
  dsimp only
  split
  · rename_i hr
    exact absurd ((C127_stops ha rs).1 hr) hn
  · right
    simp
  · left
    refine ⟨_, _, set_same, rfl, ?_⟩
    have := After.call rs ha
    simpa [sentOn] using this

theorem end_live {resp : Bytes → Option SendData} {s : Srv} {c id : Nat} {acc b whole : Bytes} {rs : List Reply} {r : SendData}
    (h : Collecting s id acc) (hne : acc ++ b ≠ []) (hr : resp (acc ++ b) = some r) (ha : After whole [] r) (hn : .err ∉ rs) :
    Live (streamReadable resp s id b true rs).1 id whole (sentOn id [(c, id, (streamReadable resp s id b true rs).2)]) ∨
      .closeSend ∈ (streamReadable resp s id b true rs).2 := by
  unfold streamReadable
  rw [if_neg (by simp)]
  dsimp only
  rw [if_neg (by simp), h.1, if_neg hne, hr]
  dsimp only
  have hd : ((s.write id).getD {}).data = none := by
    cases hs : s.write id with
    | none => rfl
    | some w => exact h.2 w hs
  rw [hd]
  dsimp only
  have hS : ∀ s' : Srv, s'.write id = some { (s.write id).getD {} with data := some r } → Live s' id whole [] :=
    fun s' h' => ⟨_, r, h', rfl, ha⟩
  split
  · have := live_writable (c := c) (hS { s with write := set s.write id _, read := set s.read id none } set_same) hn
    simpa using this
  · left
    have := hS { s with write := set s.write id _, read := set s.read id none } set_same
    simpa [sentOn] using this

theorem live_run {resp : Bytes → Option SendData} {id : Nat} {whole : Bytes} : ∀ {l : List (Nat × Nat × Ev)} {s : Srv} {acc : Bytes},
    Live s id whole acc → Ended id l → Unstopped id l →
    Live (run resp s l).1 id whole (acc ++ sentOn id (run resp s l).2) ∨ closedOn id (run resp s l).2
  | [], s, acc, h, _, _ => .inl (by simpa [run, sentOn] using h)
  | (c, i, e) :: l, s, acc, h, he, hn => by
    have he' : Ended id l := fun c e hm => he c e (.tail _ hm)
    have hn' : Unstopped id l := fun c e hm => hn c e (.tail _ hm)
    have hrun : run resp s ((c, i, e) :: l) =
      ((run resp (step resp s i e).1 l).1, (c, i, (step resp s i e).2) :: (run resp (step resp s i e).1 l).2) := rfl
    have key : ∀ {acc' : Bytes}, acc' = acc ++ sentOn id [(c, i, (step resp s i e).2)] → Live (step resp s i e).1 id whole acc' →
        Live (run resp s ((c, i, e) :: l)).1 id whole (acc ++ sentOn id (run resp s ((c, i, e) :: l)).2) ∨
          closedOn id (run resp s ((c, i, e) :: l)).2 := by
      intro acc' ha hl
      rw [hrun]
      dsimp only
      rw [sentOn_cons, ← List.append_assoc, ← ha]
      rcases live_run (resp := resp) hl he' hn' with h | ⟨c', o, h1, h2⟩
      · exact .inl h
      · exact .inr ⟨c', o, .tail _ h1, h2⟩
    by_cases hi : i = id
    · subst hi
      obtain ⟨rs, rfl⟩ := he c e (.head _)
      rcases live_writable (c := c) h (hn c rs (.head _)) with h1 | h1
      · exact key rfl h1
      · exact .inr ⟨c, _, .head _, h1⟩
    · have fr := step_frame (resp := resp) (s := s) (e := e) (fun x => hi x.symm : id ≠ i)
      obtain ⟨w, d, h1, h2⟩ := h
      exact key (by simp [sentOn, hi]) ⟨w, d, fr.1.trans h1, h2⟩

/-- With room, more is sent, or the end. -/
theorem live_progress {s : Srv} {id k : Nat} {whole acc : Bytes} {rs : List Reply} (h : Live s id whole acc) :
    ∃ b o, (streamWritable s id (.room (k + 1) :: rs)).2 = .sent b :: o ∧ (b ≠ [] ∨ .closeSend ∈ o) := by
  obtain ⟨w, d, hs, hd, ha⟩ := h
  have hb : (send d (.room (k + 1) :: rs)).1 = .done ∨ taken (send d (.room (k + 1) :: rs)).2.2 ≠ [] := by
    by_cases hr : d.remaining > 0
    · right
      obtain ⟨b, rest, g1, g2, g3, g4, g5⟩ := slice_inv (after_inv ha) hr
      have hl : 0 < b.length := List.length_pos_iff.mpr g2
      rw [send, if_pos hr, g1]
      dsimp only
      rw [if_neg (by omega), if_neg (by omega), if_neg (by omega), taken_cons]
      intro hh
      have := congrArg List.length (List.append_eq_nil_iff.mp hh).1
      rw [List.length_take, List.length_nil] at this
      omega
    · left
      rw [send, if_neg hr]
  unfold streamWritable
  rw [hs]
  dsimp only
  rw [hd]
  dsimp only
  split
  · rename_i hr
    exact ⟨_, _, rfl, .inl (hb.resolve_left (by rw [hr]; simp))⟩
  · exact ⟨_, _, rfl, .inr (by simp)⟩
  · rename_i hr
    exact ⟨_, _, rfl, .inl (hb.resolve_left hr)⟩

/-! ## The theorems -/

/-- If no other connection uses a stream of the same ID, the request, however it comes in pieces and whatever happens on
other streams in between, gets the response for all of it: what is sent is the start of that response, and the end of the
stream is sent only after all of it. -/
theorem C128_answer_partial {resp : Bytes → Option SendData} {c id : Nat} {l l' : List (Nat × Nat × Ev)} {b whole : Bytes} {rs : List Reply}
    {r : SendData} (ho : OnlyOn c id l) (hl : (requestOf c id l).length < 4096) (h1 : Open id l)
    (hne : requestOf c id l ++ b ≠ []) (hr : resp (requestOf c id l ++ b) = some r) (ha : After whole [] r) (he : Ended id l') :
    sentOn id (run resp {} (l ++ (c, id, .readable b true rs) :: l')).2 <+: whole ∧
    (closedOn id (run resp {} (l ++ (c, id, .readable b true rs) :: l')).2 →
      sentOn id (run resp {} (l ++ (c, id, .readable b true rs) :: l')).2 = whole) := by
  rw [← request_only ho] at hl hne hr
  obtain ⟨k1, k2⟩ := collect_run (resp := resp) (s := {}) (id := id) (acc := []) ⟨rfl, by simp⟩ h1 (by simpa using hl)
  rw [List.nil_append] at k1
  obtain ⟨m1, m2⟩ := end_step (c := c) (rs := rs) k1 hne hr ha
  obtain ⟨n1, n2⟩ := sending_run (resp := resp) m1 he
  rw [run_append]
  dsimp only
  rw [sentOn_append, quiet k2, List.nil_append]
  have hrun : (run resp (run resp {} l).1 ((c, id, .readable b true rs) :: l')).2 =
      (c, id, (streamReadable resp (run resp {} l).1 id b true rs).2) ::
        (run resp (streamReadable resp (run resp {} l).1 id b true rs).1 l').2 := rfl
  rw [hrun, sentOn_cons]
  refine ⟨n1, ?_⟩
  rintro ⟨c', o, hm, hc⟩
  rcases List.mem_append.mp hm with hm | hm
  · rw [k2 c' o hm] at hc
    cases hc
  · rcases List.mem_cons.mp hm with hm | hm
    · injection hm with _ hm
      injection hm with _ hm
      subst hm
      have e1 := m2 hc
      obtain ⟨t, ht⟩ := n1
      have g1 := congrArg List.length ht
      have g2 := congrArg List.length e1
      simp only [List.length_append] at g1 g2
      have g3 := List.length_eq_zero_iff.mp (show (sentOn id (run resp (streamReadable resp (run resp {} l).1 id b true rs).1 l').2).length = 0 by
        omega)
      rw [g3, List.append_nil]
      exact e1
    · exact n2 ⟨c', o, hm, hc⟩

/-- And the response is sent in full: unless the client stops the stream, as long as the end has not been sent every
event that tells of room sends more of the response, or the end. -/
theorem C128_progress_partial {resp : Bytes → Option SendData} {c c' id k : Nat} {l l' : List (Nat × Nat × Ev)} {b whole : Bytes}
    {rs rs' : List Reply} {r : SendData} (ho : OnlyOn c id l) (hl : (requestOf c id l).length < 4096) (h1 : Open id l)
    (hne : requestOf c id l ++ b ≠ []) (hr : resp (requestOf c id l ++ b) = some r) (ha : After whole [] r) (he : Ended id l')
    (hn : .err ∉ rs) (hn' : Unstopped id l') (hc : ¬ closedOn id (run resp {} (l ++ (c, id, .readable b true rs) :: l')).2) :
    ∃ d o, (run resp {} ((l ++ (c, id, .readable b true rs) :: l') ++ [(c', id, .writable (.room (k + 1) :: rs'))])).2.getLast? =
      some (c', id, .sent d :: o) ∧ (d ≠ [] ∨ .closeSend ∈ o) := by
  rw [← request_only ho] at hl hne hr
  obtain ⟨k1, k2⟩ := collect_run (resp := resp) (s := {}) (id := id) (acc := []) ⟨rfl, by simp⟩ h1 (by simpa using hl)
  rw [List.nil_append] at k1
  have hL : Live (run resp {} (l ++ (c, id, .readable b true rs) :: l')).1 id whole
      (sentOn id [(c, id, (streamReadable resp (run resp {} l).1 id b true rs).2)] ++
        sentOn id (run resp (streamReadable resp (run resp {} l).1 id b true rs).1 l').2) := by
    rw [run_append] at hc ⊢
    rcases end_live (c := c) k1 hne hr ha hn with m | m
    · rcases live_run (resp := resp) m he hn' with n | ⟨c'', o, n1, n2⟩
      · exact n
      · exact absurd ⟨c'', o, List.mem_append_right _ (.tail _ n1), n2⟩ hc
    · exact absurd ⟨c, _, List.mem_append_right _ (.head _), m⟩ hc
  obtain ⟨d, o, e1, e2⟩ := live_progress (k := k) (rs := rs') hL
  refine ⟨d, o, ?_, e2⟩
  rw [run_append]
  dsimp only
  rw [List.getLast?_append]
  simp only [run, step, List.getLast?_singleton, Option.some_or]
  rw [e1]

/-- A request that is no good (not `GET`, no path that is allowed) is answered by a reset. -/
theorem C128_reset_partial {resp : Bytes → Option SendData} {c id : Nat} {l : List (Nat × Nat × Ev)} {b : Bytes} {rs : List Reply}
    (ho : OnlyOn c id l) (hl : (requestOf c id l).length < 4096) (h1 : Open id l) (hne : requestOf c id l ++ b ≠ [])
    (hr : resp (requestOf c id l ++ b) = none) :
    ∃ q, (run resp {} (l ++ [(c, id, .readable b true rs)])).2 = q ++ [(c, id, [.resetSend])] ∧ sentOn id q = [] := by
  rw [← request_only ho] at hl hne hr
  obtain ⟨k1, k2⟩ := collect_run (resp := resp) (s := {}) (id := id) (acc := []) ⟨rfl, by simp⟩ h1 (by simpa using hl)
  rw [List.nil_append] at k1
  refine ⟨(run resp {} l).2, ?_, quiet k2⟩
  rw [run_append]
  dsimp only
  congr 1
  show [(c, id, (streamReadable resp (run resp {} l).1 id b true rs).2)] = _
  unfold streamReadable
  rw [if_neg (by simp)]
  dsimp only
  rw [if_neg (by simp), k1.1, if_neg hne, hr]

/-- Connections are mixed up: the maps know stream IDs only. If one client has sent a part of its request and another sends
a request on a stream of the same ID, the other is answered as if it had sent both. -/
theorem C128_mixed_connections {resp : Bytes → Option SendData} {c c' id : Nat} {a b whole : Bytes} {r : SendData} {k : Nat}
    (ha : a ≠ []) (hl : a.length < 4096) (hr : resp (a ++ b) = some r) (hw : r = ofBytes whole) (hk : whole ≠ [])
    (hroom : whole.length ≤ k) :
    (run resp {} [(c, id, .newStream), (c', id, .newStream), (c, id, .readable a false []), (c', id, .writable []),
      (c', id, .readable b true [.room k])]).2.getLast? = some (c', id, [.sent whole, .closeSend]) := by
  have hsl : slice (ofBytes whole) = some whole := by simp [slice, ofBytes]
  have hpos : 0 < whole.length := List.length_pos_iff.mpr hk
  have hmin : min k whole.length = whole.length := by omega
  have hsend : send (ofBytes whole) [.room k] =
      (.done, { ofBytes whole with remaining := 0, offset := whole.length % whole.length }, [(whole, whole)]) := by
    rw [send, if_pos (show (ofBytes whole).remaining > 0 from hpos), hsl]
    dsimp only
    rw [hmin, if_neg (by omega), if_neg (show ¬ (ofBytes whole).remaining < whole.length from Nat.lt_irrefl _),
      if_neg (show ¬ (ofBytes whole).data.length = 0 by show ¬ whole.length = 0; omega)]
    rw [send]
    simp [ofBytes]
  subst hw
  simp [run, step, streamReadable, streamWritable, savePartial, set, ha, hl, hr, hsend, taken]

/-! ### Examples -/

/-- A request in two pieces, and its response. -/
example : (run (fun x => if x = [1, 2, 3] then some (ofBytes [7, 8]) else none) {}
    [(5, 0, .newStream), (5, 0, .writable []), (5, 0, .readable [1, 2] false []), (5, 4, .newStream),
      (5, 0, .readable [3] true [.room 1, .room 0]), (5, 0, .writable [.room 9])]).2.map (·.2.2) =
    [[], [], [], [], [.sent [7]], [.sent [8], .closeSend]] := by decide +kernel

/-- The hypotheses of `C128_answer_partial` hold for it, with another client on another stream. -/
example : sentOn 0 (run (fun x => if x = [1, 2, 3] then some (ofBytes [7, 8]) else none) {}
    ([(5, 0, .newStream), (5, 0, .readable [1, 2] false []), (6, 4, .readable [9] false [])] ++
      (5, 0, .readable [3] true []) :: [(5, 0, .writable [.room 9])])).2 <+: [7, 8] := by
  refine (C128_answer_partial (whole := [7, 8]) ?_ (by decide) ?_ (by decide) (by decide) .bytes ?_).1
  · intro x hx hi
    simp only [List.mem_cons, List.not_mem_nil, or_false] at hx
    rcases hx with rfl | rfl | rfl
    · rfl
    · rfl
    · exact absurd hi (by decide)
  · intro c b rs hm
    simp at hm
  · intro c e hm
    simp at hm
    exact ⟨_, hm.2⟩

/-- "GET /1" of one client and "0" of another: the second is answered for "GET /10". -/
example : (run (fun x => if x = [71, 69, 84, 32, 47, 49, 48] then some (ofBytes [0, 0]) else none) {}
    [(1, 0, .newStream), (2, 0, .newStream), (1, 0, .readable [71, 69, 84, 32, 47, 49] false []), (2, 0, .writable []),
      (2, 0, .readable [48] true [.room 100])]).2.getLast? = some (2, 0, [.sent [0, 0], .closeSend]) :=
  C128_mixed_connections (by decide) (by decide) (by decide) rfl (by decide) (by decide)

end Neqo.Http09
