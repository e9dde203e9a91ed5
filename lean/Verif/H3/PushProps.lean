import Verif.H3.PushOrder

/-! # C45: what an application sees of pushes

A client starts with `Push.new debug n`, where `n` is the number of concurrent pushes
that it was configured for, and goes through any sequence of operations. -/
namespace Neqo.H3
variable {H : Type} [DecidableEq H]

/-- The states a client can get into. -/
def Push.Reachable (p : Push H) : Prop := ∃ d n ops, p = ((Push.new d n : Push H).run ops).1

theorem Push.Reachable.inv {p : Push H} (h : p.Reachable) : p.Inv := by
  obtain ⟨d, n, ops, rfl⟩ := h; exact (Push.inv_new d n).run_inv ops

theorem Push.Reachable.lim {p : Push H} (h : p.Reachable) : p.Lim := by
  obtain ⟨d, n, ops, rfl⟩ := h
  exact Push.run_keeps Push.Lim (fun p op hi hp => hp.step hi op) (Push.inv_new d n) (Push.lim_new d n) ops

/-- A push ID gets at most one stream.  After a push stream was accepted, whatever
happens next, no other stream with that push ID is accepted. -/
theorem C45_one_stream (p : Push H) (hp : p.Reachable) (id sid sid2 : Nat) (hs : sid ∉ p.used)
    (hacc : (p.step (.newStream id sid)).2 = .ok) (ops : List (POp H))
    (hs2 : sid2 ∉ ((p.step (.newStream id sid)).1.run ops).1.used) :
    (((p.step (.newStream id sid)).1.run ops).1.step (.newStream id sid2)).2 ≠ .ok := by
  have hi := hp.inv
  have hi1 := hi.step_inv (.newStream id sid)
  have h1 : ((p.step (.newStream id sid)).1.act.view id).hadStream = true := by
    revert hacc
    simp only [Push.step, if_neg hs]
    unfold Push.newStream Push.addNewPushStream
    simp only
    split
    · intro h; cases h
    by_cases hid : id > p.maxId
    · rw [if_pos hid]; intro h; cases h
    rw [if_neg hid]
    by_cases hc : p.act.view id = .closed
    · obtain ⟨a1, e, hv, _⟩ := get_closed p.act id hc
      rw [e]; intro h; cases h
    · obtain ⟨e, hf⟩ := get_open p.act id hc
      rw [e]
      cases hv : p.act.view id with
      | closed => exact absurd hv hc
      | init => intro _; show (((p.act.grow id).set id _).view id).hadStream = true; rw [view_set _ _ _ hf, if_pos rfl]; rfl
      | promise h => intro _; show (((p.act.grow id).set id _).view id).hadStream = true; rw [view_set _ _ _ hf, if_pos rfl]; rfl
      | active _ _ => intro h; cases h
      | only _ _ => intro h; cases h
  have h2 := Push.run_keeps (fun q => (q.act.view id).hadStream = true)
    (fun q op hq h => next_hadStream (hq.step_next op id) h) hi1 h1 ops
  revert h2 hs2
  generalize ((p.step (.newStream id sid)).1.run ops).1 = q
  intro hs2 h2
  simp only [Push.step, if_neg hs2]
  unfold Push.newStream Push.addNewPushStream
  simp only
  split
  · intro h; cases h
  by_cases hid : id > q.maxId
  · rw [if_pos hid]; intro h; cases h
  rw [if_neg hid]
  by_cases hc : q.act.view id = .closed
  · obtain ⟨a1, e, hv, _⟩ := get_closed q.act id hc
    rw [e]; intro h; cases h
  · obtain ⟨e, hf⟩ := get_open q.act id hc
    rw [e]
    cases hv : q.act.view id with
    | closed => exact absurd hv hc
    | init => rw [hv] at h2; cases h2
    | promise h => rw [hv] at h2; cases h2
    | active _ _ => intro h; cases h
    | only _ _ => intro h; cases h

example : ((Push.new true 4 : Push Nat).run [.sendMax, .newStream 2 15]).2 = .ok ∧
    ((Push.new true 4 : Push Nat).run [.sendMax, .newStream 2 15, .newStream 2 19]).2 = .closes .httpId := by
  decide +kernel

/-- Push IDs above the last `MAX_PUSH_ID` that was sent close the connection with
`H3_ID_ERROR`, in a promise, on a push stream or in `CANCEL_PUSH`.
Missing: push ID 0 before the first `MAX_PUSH_ID`, see `C45_unasked_promise_accepted`. -/
theorem C45_above_max_partial (p : Push H) (hp : p.Reachable) (id : Nat)
    (hid : ∀ m, allowed p.frames = some m → m < id) (h0 : 0 < id) (ref sid : Nat) (h : H) (hs : sid ∉ p.used) :
    (p.step (.promise id ref h)).2 = .closes .httpId ∧ (p.step (.newStream id sid)).2 = .closes .httpId ∧
      (p.step (.cancelPush id)).2 = .closes .httpId := by
  have hm : id > p.maxId := by
    rcases hp.lim.last with ⟨_, e⟩ | e
    · omega
    · exact hid _ e
  refine ⟨?_, ?_, ?_⟩
  · simp only [Push.step, Push.newPushPromise, if_pos hm]
  · simp only [Push.step, if_neg hs, Push.newStream, Push.addNewPushStream, if_pos hm]
    split <;> rfl
  · simp only [Push.step, Push.handleCancelPush, if_pos hm]

example : ((Push.new true 4 : Push Nat).run [.sendMax]).1.frames = [.maxPushId 3] ∧
    ((Push.new true 4 : Push Nat).run [.sendMax, .promise 4 0 7]).2 = .closes .httpId := by decide +kernel

/-- A client that does not want pushes closes the connection when a push stream comes. -/
theorem C45_disabled (d : Bool) (ops : List (POp H)) (id sid : Nat)
    (hs : sid ∉ ((Push.new d 0 : Push H).run ops).1.used) :
    (((Push.new d 0 : Push H).run ops).1.step (.newStream id sid)).2 = .closes .httpId := by
  have h := Push.run_keeps (fun q : Push H => q.maxConcurrent = 0)
    (fun q op _ h => (step_conc q op).1.trans h) (Push.inv_new d 0) rfl ops
  simp only [Push.step, if_neg hs, Push.newStream, if_pos h]

example : ((Push.new true 0 : Push Nat).run [.promise 0 4 7, .newStream 0 15]).2 = .closes .httpId := by decide +kernel

/-- Push ID 0 is accepted although no `MAX_PUSH_ID` was sent, even at a client that does
not want pushes, and the application is told about it (push_controller.rs:271-279). -/
theorem C45_unasked_promise_accepted :
    ((Push.new true 0 : Push Nat).run [.sendMax, .promise 0 4 7]).2 = .ok ∧
    ((Push.new true 0 : Push Nat).run [.sendMax, .promise 0 4 7]).1.frames = [] ∧
    ((Push.new true 0 : Push Nat).run [.sendMax, .promise 0 4 7]).1.queue = [.promise 0 4 7] := by decide +kernel

/-- The values of `MAX_PUSH_ID` frames get larger. -/
theorem C45_max_grows (p : Push H) (hp : p.Reachable) : (maxIds p.frames).Pairwise (· < ·) := hp.lim.incr

/-- The peer is never allowed more open pushes than the client was configured for: of
any different push IDs that are allowed and not finished there are at most as many. -/
theorem C45_concurrent (p : Push H) (hp : p.Reachable) (m : Nat) (hm : allowed p.frames = some m)
    (ids : List Nat) (hn : ids.Nodup) (ho : ∀ id ∈ ids, id ≤ m ∧ p.act.view id ≠ .closed) :
    ids.length ≤ p.maxConcurrent := by
  have hi := hp.inv
  have hl := hp.lim
  have hmax : p.maxId = m := by
    rcases hl.last with ⟨e, _⟩ | e
    · unfold allowed at hm; rw [e] at hm; cases hm
    · rw [hm] at e; cases e; rfl
  have hroom : p.maxId + 1 ≤ p.act.numberDone + p.maxConcurrent := by
    have hpos : 0 < p.maxConcurrent := by
      -- a frame was sent, so pushes are wanted
      obtain ⟨d, n, ops, rfl⟩ := hp
      have key : ∀ q : Push H, q.Inv → (q.frames.filterMap (fun | .maxPushId i => some i | .cancelPush _ => none) = [] ∨
          0 < q.maxConcurrent) → ∀ op, (maxIds (q.step op).1.frames = [] ∨ 0 < (q.step op).1.maxConcurrent) := by
        intro q _ hq op
        rw [(step_conc q op).1]
        by_cases hop : op = .sendMax
        · by_cases h0 : q.maxConcurrent = 0
          · subst hop
            simp only [Push.step, Push.sendMax, if_pos h0]
            rcases hq with hq | hq
            · exact Or.inl hq
            · omega
          · right; omega
        · rw [(step_frames q op hop).2]; exact hq
      have := Push.run_keeps (fun q : Push H => maxIds q.frames = [] ∨ 0 < q.maxConcurrent)
        (fun q op hi h => key q hi h op) (Push.inv_new d n) (Or.inl rfl) ops
      rcases this with h | h
      · unfold allowed at hm; rw [h] at hm; cases hm
      · exact h
    have := hl.room; omega
  have := open_done_le p.act (p.maxId + 1) (fun id h => by
    have := hi.range id (by rw [h]; exact fun h => by cases h); omega) ids hn
    (fun id h => ⟨by have := (ho id h).1; omega, (ho id h).2⟩)
  omega

example : allowed ((Push.new true 4 : Push Nat).run
    [.sendMax, .promise 1 0 7, .cancelPush 0, .cancelPush 2, .sendMax]).1.frames = some 5 := by decide +kernel

/-- A client that wants two pushes or more never leaves the peer without: after input has
been processed the peer has been told a limit with more than half of the pushes open. -/
theorem C45_room_partial (p : Push H) (hp : p.Reachable) (h2 : 2 ≤ p.maxConcurrent) :
    ∃ m, allowed (p.step .sendMax).1.frames = some m ∧
      p.act.numberDone + p.maxConcurrent / 2 < m + 1 := by
  have hi := hp.inv
  have hl := hp.lim
  have hd := hi.done_le_max
  have hl1 := hl.step hi .sendMax
  have hlast := hl1.last
  revert hlast
  simp only [Push.step, Push.sendMax]
  rw [if_neg (by omega), if_neg (by omega)]
  split
  · intro hlast
    refine ⟨p.act.numberDone + p.maxConcurrent - 1, ?_, by omega⟩
    rcases hlast with ⟨e, _⟩ | e
    · simp [maxIds] at e
    · exact e
  · rename_i hc
    intro hlast
    rcases hlast with ⟨e, h0⟩ | e
    · have h0 : p.maxId = 0 := h0
      exfalso; omega
    · exact ⟨p.maxId, e, by omega⟩

/-- A client that was configured for one push never sends `MAX_PUSH_ID`, so that no push
can come (push_controller.rs:405-418, where the comparison is `1 <= 0`). -/
theorem C45_single_never_allowed (d : Bool) (n : Nat) :
    ((Push.new d 1 : Push H).run (List.replicate n .sendMax)).1.frames = [] := by
  have : (Push.new d 1 : Push H).run (List.replicate n .sendMax) = (Push.new d 1, .ok) := by
    induction n with
    | zero => rfl
    | succ n ih =>
      have e : (Push.new d 1 : Push H).step .sendMax = (Push.new d 1, .ok) := by
        simp [Push.step, Push.sendMax, Push.new, Act.numberDone]
      rw [List.replicate_succ]; unfold Push.run; rw [e]; exact ih
  rw [this]; rfl

/-- The application hears of a push before it hears of what came on the push stream.
Missing: requests that are closed while the promise is waiting, see
`C45_unannounced_after_request_closed`. -/
theorem C45_promise_first_partial (d : Bool) (n : Nat) (ops : List (POp H))
    (hops : ∀ op ∈ ops, op.isRequestClosed = false) (pre post : List (PEv H)) (e : PEv H)
    (ht : ((Push.new d n : Push H).run ops).1.told = pre ++ e :: post) (hd : e.isData = true) :
    ∃ ref h, PEv.promise e.id ref h ∈ pre := by
  have := Push.run_keeps' (fun op : POp H => op.isRequestClosed = false) Push.Ord
    (fun p op hop hi hp => hp.step hi op hop) (Push.inv_new d n) (Push.ord_new d n) ops hops
  exact ordFrom_split _ pre post e this.ord ht hd

example : ((Push.new true 4 : Push Nat).run
    [.sendMax, .newStream 1 15, .headers 15 8 false false, .data 15, .promise 1 0 7]).1.queue =
    [.promise 1 0 7, .header 1 8 false false, .readable 1] := by decide +kernel

/-- The promise is dropped with the events of a request that the application cancels,
but the push goes on, and the application gets a response to a push it never heard of
(client_events.rs:398-413). -/
theorem C45_unannounced_after_request_closed :
    ((Push.new true 4 : Push Nat).run
      [.sendMax, .promise 1 0 7, .requestClosed 0 false, .newStream 1 15, .headers 15 8 false false]).1.told =
    [.header 1 8 false false] := by decide +kernel

/-- All promises of a push that the application is told have the same fields. -/
theorem C45_same_fields (p : Push H) (hp : p.Reachable) (id r r' : Nat) (h h' : H)
    (h1 : PEv.promise id r h ∈ p.told) (h2 : PEv.promise id r' h' ∈ p.told) : h = h' :=
  hp.inv.same id r r' h h' h1 h2

/-- After a push was reported as cancelled or reset, nothing is reported for it. -/
theorem C45_last (p : Push H) (hp : p.Reachable) (pre post : List (PEv H)) (e x : PEv H)
    (ht : p.told = pre ++ e :: post) (he : e.isEnd = true) (hx : x ∈ post) : x.id ≠ e.id := by
  have := hp.inv.final
  rw [ht, List.pairwise_append] at this
  exact (List.pairwise_cons.mp this.2.1).1 x hx he

/-- After the application has cancelled a push, it is told nothing more about it. -/
theorem C45_cancelled (p : Push H) (hp : p.Reachable) (id : Nat) (hc : (p.step (.appCancel id)).2 = .ok)
    (ops : List (POp H)) :
    about id ((p.step (.appCancel id)).1.run ops).1.told = about id p.seen := by
  have hi := hp.inv
  have hi1 := hi.step_inv (.appCancel id)
  have h1 : (p.step (.appCancel id)).1.act.view id = .closed ∧
      (∀ e ∈ (p.step (.appCancel id)).1.queue, e.id ≠ id) ∧ (p.step (.appCancel id)).1.seen = p.seen := by
    have hkeep : (∀ e ∈ p.queue, e.id = id → e ≠ .reset id) → ∀ e ∈ p.queue.filter (keepOther id), e.id ≠ id := by
      intro hr e he hid
      obtain ⟨h1, h2⟩ := List.mem_filter.mp he
      have := hr e h1 hid
      cases e <;> simp_all [keepOther, PEv.id]
    have hopen : ∀ h, (p.act.view id).fields = some h → ∀ e ∈ p.queue, e.id = id → e ≠ .reset id := by
      intro h hh e he hid e2
      rcases hi.opened id h hh e (List.mem_append_right _ he) hid with ⟨r, hx⟩ | hx
      · rw [e2] at hx; cases hx
      · rw [e2] at hx; cases hx
    revert hc
    simp only [Push.step]
    unfold Push.cancel
    split
    · intro h; cases h
    by_cases hcl : p.act.view id = .closed
    · obtain ⟨a1, e, hv, _⟩ := get_closed p.act id hcl
      rw [e]
      simp only
      split
      · rename_i hh
        intro _
        refine ⟨by show a1.view id = _; rw [hv, hcl], hkeep ?_, rfl⟩
        intro e he _ e2
        subst e2
        unfold Push.hasPush at hh
        rw [List.any_eq_true] at hh
        obtain ⟨x, hx, hx2⟩ := hh
        cases x with
        | promise i r h =>
          simp only [decide_eq_true_eq] at hx2
          subst hx2
          exact hi.resetq i r h he hx
        | _ => cases hx2
      · intro h; cases h
    · obtain ⟨e, hf⟩ := get_open p.act id hcl
      obtain ⟨a1, e2, hv, _⟩ := close_spec (p.act.grow id) id
      rw [e]
      cases hv0 : p.act.view id with
      | closed => exact absurd hv0 hcl
      | init => intro h; cases h
      | only _ _ => intro h; cases h
      | promise h =>
        simp only [e2]
        intro _
        exact ⟨by show a1.view id = _; rw [hv, if_pos rfl], hkeep (hopen h (by rw [hv0]; rfl)), rfl⟩
      | active sid h =>
        simp only [e2]
        intro _
        exact ⟨by show a1.view id = _; rw [hv, if_pos rfl], hkeep (hopen h (by rw [hv0]; rfl)), rfl⟩
  have hab : ∀ l : List (PEv H), (∀ e ∈ l, e.id ≠ id) → about id l = [] := by
    intro l hl
    unfold about
    rw [List.filter_eq_nil_iff]
    intro e he; simp [hl e he]
  have key := Push.run_keeps (fun q : Push H => q.act.view id = .closed ∧ (∀ e ∈ q.queue, e.id ≠ id) ∧
      about id q.told = about id p.seen)
    (fun q op hq h => by
      obtain ⟨h1, h2, h3⟩ := h
      have hcl : (q.step op).1.act.view id = .closed := by
        have := hq.step_next op id; rw [h1] at this; exact next_closed this
      refine ⟨hcl, ?_⟩
      have grow : ∀ add : List (PEv H), (q.step op).1.queue = q.queue ++ add → (q.step op).1.seen = q.seen →
          (∀ e ∈ add, e.id ≠ id) →
          (∀ e ∈ (q.step op).1.queue, e.id ≠ id) ∧ about id (q.step op).1.told = about id p.seen := by
        intro add hqq hs hadd
        refine ⟨?_, ?_⟩
        · rw [hqq]; intro e he
          rcases List.mem_append.mp he with he | he
          · exact h2 e he
          · exact hadd e he
        · unfold Push.told
          rw [hqq, hs, ← List.append_assoc, about_append, hab add hadd, List.append_nil]; exact h3
      have shrink : ∀ (keep : PEv H → Bool) (add : List (PEv H)), (q.step op).1.queue = q.queue.filter keep ++ add →
          (q.step op).1.seen = q.seen → (∀ e ∈ add, e.id ≠ id) →
          (∀ e ∈ (q.step op).1.queue, e.id ≠ id) ∧ about id (q.step op).1.told = about id p.seen := by
        intro keep add hqq hs hadd
        have hk : ∀ e ∈ q.queue.filter keep, e.id ≠ id := fun e he => h2 e (List.mem_filter.mp he).1
        refine ⟨?_, ?_⟩
        · rw [hqq]; intro e he
          rcases List.mem_append.mp he with he | he
          · exact hk e he
          · exact hadd e he
        · unfold Push.told at h3 ⊢
          rw [about_append, hab _ h2, List.append_nil] at h3
          rw [hqq, hs, about_append, about_append, hab _ hk, hab add hadd, List.append_nil, List.append_nil]
          exact h3
      by_cases hop : op.isRequestClosed = false
      · cases hq.trans op hop with
        | same _ ht hqq => exact ⟨fun e he => h2 e (hqq e he), by rw [ht]; exact h3⟩
        | closing i keep add hv hqq hs hk ha =>
          refine shrink keep add hqq hs ?_
          intro e he
          rcases ha with ha | ⟨x, ha, _, hid, hnc⟩
          · rw [ha] at he; cases he
          · rw [ha] at he; rw [List.mem_singleton.mp he, hid]
            intro e; rw [e] at hnc; exact hnc h1
        | promised i ref h ev s' hv hqq hs hev hn hf =>
          have hne : i ≠ id := by
            intro e; rw [e, h1] at hn; rw [next_closed hn] at hf; cases hf
          refine grow _ hqq hs ?_
          intro e he
          rcases List.mem_cons.mp he with rfl | he
          · exact hne
          · rw [(hev e he).2]; exact hne
        | streaming i s' hv hqq hs _ _ => exact grow [] (by rw [hqq, List.append_nil]) hs (fun _ h => by cases h)
        | event e h hv hqq hs _ hf =>
          refine grow [e] hqq hs ?_
          intro x hx; rw [List.mem_singleton.mp hx]
          intro e2; rw [e2, h1] at hf; cases hf
      · cases op <;> first | exact absurd rfl hop | skip
        rename_i ref hd
        simp only [Push.step] at shrink ⊢
        split
        · exact ⟨h2, h3⟩
        · rename_i hn
          rw [if_neg hn] at shrink
          exact shrink _ [] (by rw [List.append_nil]) rfl (fun _ h => by cases h)) hi1 ⟨h1.1, h1.2.1, by
        unfold Push.told
        rw [h1.2.2, about_append, hab _ h1.2.1, List.append_nil]⟩ ops
  exact key.2.2

example : ((Push.new true 4 : Push Nat).run [.sendMax, .promise 1 0 7, .newStream 1 15, .headers 15 8 false false,
    .pop, .appCancel 1, .promise 1 4 7, .cancelPush 1]).1.told = [.promise 1 0 7] := by decide +kernel

/-- While the stream of a promised push is open, the application is told everything the
stream had to report, in order. -/
theorem C45_delivered (p : Push H) (hp : p.Reachable) (sid id ref : Nat) (h : H) (hl : (sid, id) ∈ p.live)
    (hok : (p.step (.promise id ref h)).2 = .ok) (ops : List (POp H))
    (hl2 : (sid, id) ∈ ((p.step (.promise id ref h)).1.run ops).1.live) :
    dataOf id ((p.step (.promise id ref h)).1.run ops).1.told =
      about id ((p.step (.promise id ref h)).1.run ops).1.reports := by
  have hi := hp.inv
  have hi1 := hi.step_inv (.promise id ref h)
  have hstream := (hi.live sid id).mp hl
  have hnc := stream_not_closed hstream
  have h1 : (p.step (.promise id ref h)).1.act.view id = .closed ∨
      ∃ s h', (p.step (.promise id ref h)).1.act.view id = .active s h' := by
    right
    revert hok
    simp only [Push.step]
    unfold Push.newPushPromise
    split
    · intro h; cases h
    obtain ⟨e, hf⟩ := get_open p.act id hnc
    rw [e]
    cases hv : p.act.view id with
    | closed => exact absurd hv hnc
    | init => rw [hv] at hstream; cases hstream
    | promise _ => rw [hv] at hstream; cases hstream
    | active s h0 =>
      simp only
      split
      · intro h; cases h
      · intro _; exact ⟨s, h0, by show (p.act.grow id).view id = _; rw [view_grow, hv]⟩
    | only s ev =>
      intro _
      exact ⟨s, h, by show ((p.act.grow id).set id _).view id = _; rw [view_set _ _ _ hf, if_pos rfl]⟩
  have h2 := Push.run_keeps (fun q : Push H => q.act.view id = .closed ∨ ∃ s h', q.act.view id = .active s h')
    (fun q op hq h => by
      have hn := hq.step_next op id
      rcases h with h | ⟨s, h', h⟩
      · rw [h] at hn; exact Or.inl (next_closed hn)
      · rw [h] at hn
        rcases hn with hn | hn
        · exact Or.inr ⟨s, h', hn.symm⟩
        · exact Or.inl hn) hi1 h1 ops
  have hi2 := hi1.run_inv ops
  have hrep := hi2.rep id
  rcases h2 with h2 | ⟨s, h', h2⟩
  · have := (hi2.live sid id).mp hl2
    rw [h2] at this; cases this
  · rw [h2] at hrep; exact hrep

/-- The program panics in one case only: the message on a push stream is complete before
the promise has come.
Missing: that case, see `C45_finished_before_promise_panics`. -/
theorem C45_no_panic_partial (p : Push H) (hp : p.Reachable) (op : POp H) (hpan : (p.step op).2 = .panic) :
    ∃ sid id, op = .done sid ∧ (sid, id) ∈ p.live ∧ ∀ e ∈ p.told, e.id ≠ id := by
  have hi := hp.inv
  have event : ∀ (id sid : Nat) (ev : PEv H), (p.act.view id).stream = some sid →
      ({ p with reports := p.reports ++ [ev] }.streamEvent id ev).2 ≠ .panic := by
    intro id sid ev h
    have hnc := stream_not_closed h
    obtain ⟨e, hf⟩ := get_open p.act id hnc
    unfold Push.streamEvent
    simp only [e]
    cases hc : p.act.view id with
    | closed => exact absurd hc hnc
    | init => rw [hc] at h; cases h
    | promise _ => rw [hc] at h; cases h
    | only s buf => exact fun h => by cases h
    | active s hh => exact fun h => by cases h
  revert hpan
  cases op with
  | promise id ref h =>
    simp only [Push.step]
    unfold Push.newPushPromise
    split
    · intro h; cases h
    by_cases hc : p.act.view id = .closed
    · obtain ⟨a1, e, hv, _⟩ := get_closed p.act id hc
      rw [e]; intro h; cases h
    · obtain ⟨e, hf⟩ := get_open p.act id hc
      rw [e]
      cases hv : p.act.view id with
      | closed => exact absurd hv hc
      | init => intro h; cases h
      | promise _ => simp only; split <;> (intro h; cases h)
      | active _ _ => simp only; split <;> (intro h; cases h)
      | only _ _ => intro h; cases h
  | newStream id sid =>
    simp only [Push.step]
    split
    · intro h; cases h
    unfold Push.newStream Push.addNewPushStream
    simp only
    split
    · intro h; cases h
    by_cases hid : id > p.maxId
    · rw [if_pos hid]; intro h; cases h
    rw [if_neg hid]
    by_cases hc : p.act.view id = .closed
    · obtain ⟨a1, e, hv, _⟩ := get_closed p.act id hc
      rw [e]; intro h; cases h
    · obtain ⟨e, hf⟩ := get_open p.act id hc
      rw [e]
      cases hv : p.act.view id <;> first | exact absurd hv hc | (intro h; cases h)
  | headers sid h i f =>
    simp only [Push.step]
    cases hx : p.idOf sid with
    | none => intro h; cases h
    | some id => intro h; exact absurd h (event id sid _ ((hi.live sid id).mp (idOf_mem p sid id hx)))
  | data sid =>
    simp only [Push.step]
    cases hx : p.idOf sid with
    | none => intro h; cases h
    | some id => intro h; exact absurd h (event id sid _ ((hi.live sid id).mp (idOf_mem p sid id hx)))
  | done sid =>
    simp only [Push.step]
    cases hx : p.idOf sid with
    | none => intro h; cases h
    | some id =>
      have hm := idOf_mem p sid id hx
      have hst := (hi.live sid id).mp hm
      have hnc := stream_not_closed hst
      simp only
      unfold Push.close
      obtain ⟨a1, e, hv, _⟩ := close_spec p.act id
      simp only [e]
      rw [if_neg hnc]
      cases hc : p.act.view id with
      | closed => exact absurd hc hnc
      | init => rw [hc] at hst; cases hst
      | promise _ => rw [hc] at hst; cases hst
      | active _ _ => intro h; cases h
      | only _ _ => intro _; exact ⟨sid, id, rfl, hm, hi.fresh id (by rw [hc]; rfl)⟩
  | reset sid le =>
    simp only [Push.step]
    cases hx : p.idOf sid with
    | none => intro h; cases h
    | some id =>
      have hst := (hi.live sid id).mp (idOf_mem p sid id hx)
      have hnc := stream_not_closed hst
      obtain ⟨e, hf⟩ := get_open p.act id hnc
      simp only
      unfold Push.streamReset
      simp only [e]
      cases hc : p.act.view id with
      | closed => exact absurd hc hnc
      | init => rw [hc] at hst; cases hst
      | promise _ => rw [hc] at hst; cases hst
      | active _ _ => intro h; cases h
      | only _ _ => intro h; cases h
  | cancelPush id =>
    simp only [Push.step]
    unfold Push.handleCancelPush
    split
    · intro h; cases h
    obtain ⟨a1, e, hv, _⟩ := close_spec p.act id
    rw [e]
    cases hc : p.act.view id with
    | closed => rw [if_pos rfl]; intro h; cases h
    | init => rw [if_neg (fun h => by cases h)]; intro h; cases h
    | promise _ => rw [if_neg (fun h => by cases h)]; intro h; cases h
    | only _ _ => rw [if_neg (fun h => by cases h)]; intro h; cases h
    | active _ _ => rw [if_neg (fun h => by cases h)]; intro h; cases h
  | appCancel id =>
    simp only [Push.step]
    unfold Push.cancel
    repeat' split
    all_goals (intro h; cases h)
  | appRead id => intro h; cases h
  | pop =>
    simp only [Push.step]
    split <;> (intro h; cases h)
  | sendMax =>
    have := hi.done_le_max
    simp only [Push.step, Push.sendMax]
    split
    · intro h; cases h
    rw [if_neg (by omega)]
    split <;> (intro h; cases h)
  | requestClosed _ _ =>
    simp only [Push.step]
    split <;> (intro h; cases h)

/-- A response without content, whose stream ends with the header section, and whose
promise comes after it: the client panics in a debug build (push_controller.rs:319-326). -/
theorem C45_finished_before_promise_panics :
    ((Push.new true 4 : Push Nat).run [.sendMax, .newStream 1 15, .headers 15 8 false true, .done 15]).2 =
      .panic := by decide +kernel

/-- In a release build the push is lost: nothing is reported when the promise comes. -/
theorem C45_finished_before_promise_lost :
    ((Push.new false 4 : Push Nat).run
      [.sendMax, .newStream 1 15, .headers 15 8 false true, .done 15, .promise 1 0 7]).2 = .ok ∧
    ((Push.new false 4 : Push Nat).run
      [.sendMax, .newStream 1 15, .headers 15 8 false true, .done 15, .promise 1 0 7]).1.told = [] := by
  decide +kernel

/-- `CANCEL_PUSH` for a push whose promise has not come is reported to the application,
which never heard of the push (push_controller.rs:303-312). -/
theorem C45_unknown_push_canceled :
    ((Push.new true 4 : Push Nat).run [.sendMax, .newStream 1 15, .cancelPush 1]).1.told = [.canceled 1] := by
  decide +kernel

/-- Reading from a push ID that is not in use makes room for all IDs below it, also for
IDs that the peer may not use (push_controller.rs:74-90, 398-403). -/
theorem C45_read_makes_room (d : Bool) (n id : Nat) :
    ((Push.new d n : Push H).step (.appRead id)).1.act.states.length = id + 1 := by
  have hc : (Push.new d n : Push H).act.view id ≠ .closed := by simp [Push.new, Act.view]
  obtain ⟨e, _⟩ := get_open _ id hc
  have hv : (Push.new d n : Push H).act.view id = .init := by simp [Push.new, Act.view]
  simp only [Push.step, Push.activeStreamId, e, hv]
  simp [Act.grow, Push.new]

end Neqo.H3
