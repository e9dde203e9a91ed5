import Verif.Sched.Runs

/-!
C44, C57 and C58: scheduling of send streams.
-/

namespace Neqo.Sched

variable {σ γ : Type}

/-! ### A stream for examples -/

/-- A stream with some bytes to send, which has ended or not. -/
def toy : Writer (Nat × Bool) Unit where
  has st := decide (0 < st.1)
  write _ st rem :=
    if st.1 = 0 ∨ rem < 2 then ⟨st, (), rem, false, decide (2 ≤ rem)⟩
    else ⟨(st.1 - min st.1 rem, st.2), (), rem - min st.1 rem, true, decide (2 ≤ rem - min st.1 rem)⟩
  ended st := st.2

theorem toy_ok : WriterOk toy := by
  refine ⟨fun _ st rem => ?_, fun _ st rem h => ?_, fun _ st rem h => ?_⟩
  · unfold toy
    dsimp only
    split
    · exact Nat.le_refl _
    · exact Nat.sub_le _ _
  · unfold toy at h ⊢
    dsimp only at h ⊢
    split at h
    · cases h
    · rename_i hh
      rw [if_neg hh]
      dsimp only
      omega
  · unfold toy at h ⊢
    dsimp only at h ⊢
    split at h
    · rename_i hh
      rw [if_pos hh]
      have := of_decide_eq_false h
      dsimp only
      omega
    · rename_i hh
      rw [if_neg hh]
      have := of_decide_eq_false h
      dsimp only
      omega

theorem toy_ends : WriterEnds toy := by
  intro _ st rem
  unfold toy
  dsimp only
  split <;> rfl

/-- Calls one after the other. -/
def execs (w : Writer σ γ) (s : Sched σ) : List (Op σ γ) → Option (Sched σ)
  | [] => some s
  | op :: l =>
    match s.exec w op with
    | .ok s => execs w s l
    | .error _ => none

theorem toy_reach {q : Prop} {s s' : Sched (Nat × Bool)} {l : List (Op (Nat × Bool) Unit)} (h : Reach toy q s)
    (ha : ∀ s : Sched (Nat × Bool), ∀ op ∈ l, op.Allowed s ∧ op.Noted toy s) (he : execs toy s l = some s') :
    Reach toy q s' := by
  induction l generalizing s with
  | nil => cases he; exact h
  | cons op l ih =>
    unfold execs at he
    split at he
    · rename_i s1 h1
      obtain ⟨a1, a2⟩ := ha s op List.mem_cons_self
      exact ih (.step op h a1 (fun _ => a2) h1) (fun s o ho => ha s o (List.mem_cons_of_mem _ ho)) he
    · cases he

/-- Four streams: 0 is unfair, 4 and 8 are fair, and 12 has an order. -/
def four : Sched (Nat × Bool) :=
  ((((({} : Sched (Nat × Bool)).insert 0 (10, false)).insert 4 (30, false)).insert 8 (30, false)).insert 12 (30, false))

theorem four_reach : Reach toy True four := by
  have h0 : Reach toy True ({} : Sched (Nat × Bool)) := .init
  have h1 := Reach.step (.insert 0 (10, false)) h0 rfl (fun _ => rfl) rfl
  have h2 := Reach.step (.insert 4 (30, false)) h1 rfl (fun _ => rfl) rfl
  have h3 := Reach.step (.insert 8 (30, false)) h2 rfl (fun _ => rfl) rfl
  exact Reach.step (.insert 12 (30, false)) h3 rfl (fun _ => rfl) rfl

def fourOps : List (Op (Nat × Bool) Unit) := [.fair 4 true, .fair 8 true, .order 12 (some 5)]

def fourSet : Sched (Nat × Bool) := (execs toy four fourOps).getD {}

theorem fourSet_reach : Reach toy True fourSet := by
  refine toy_reach four_reach (l := fourOps) ?_ (by decide +kernel)
  intro s op hop
  simp only [fourOps, List.mem_cons, List.not_mem_nil, or_false] at hop
  rcases hop with rfl | rfl | rfl <;> exact ⟨trivial, trivial⟩

/-! ### C57: where streams are queued -/

/-- In every history, a fair stream is queued exactly once, in its group and with its order, and
nothing else is queued. -/
theorem C57_queued_where_set {w : Writer σ γ} (hw : WriterOk w) {q : Prop} {s : Sched σ} (h : Reach w q s) :
    (places s).Nodup ∧ ∀ g o id, (g, o, id) ∈ places s ↔ ∃ x, imFind s.map id = some x ∧ (g, o, id) ∈ x.place id := by
  have hs := reach_ok hw h
  refine ⟨places_nodup hs.gw, fun g o id => ?_⟩
  rw [mem_places hs.gw, hs.mem]
  constructor
  · rintro ⟨x, hx, hf, hg, ho⟩
    refine ⟨x, hx, ?_⟩
    unfold Strm.place
    rw [if_pos hf, hg, ho]
    exact List.mem_cons_self
  · rintro ⟨x, hx, hp⟩
    unfold Strm.place at hp
    by_cases hf : x.fair = true
    · rw [if_pos hf] at hp
      obtain ⟨a, b⟩ := Prod.mk.inj (List.mem_singleton.mp hp)
      exact ⟨x, hx, hf, a.symm, (Prod.mk.inj b).1.symm⟩
    · rw [if_neg hf] at hp
      cases hp

example : places fourSet = [(0, some 5, 12), (0, none, 4), (0, none, 8)] := by decide +kernel

/-- No call panics: one that fails was for a stream that does not exist or asked for what is not
allowed, and changes nothing. -/
theorem C57_no_panic {w : Writer σ γ} (hw : WriterOk w) {q : Prop} {s : Sched σ} (h : Reach w q s)
    (op : Op σ γ) (ha : op.Allowed s) : s.exec w op ≠ .error .panic := by
  rcases exec_spec hw (reach_ok hw h) op ha with ⟨s', k, _⟩ | k | k <;> rw [k] <;> intro hh <;> cases hh

example : (fourSet.exec toy (.group 0 (some 3)) = .error .invalidInput) ∧
    (fourSet.exec toy (.group 16 (some 3)) = .error .invalidStreamId) := by decide +kernel

/-- The settings are those last asked for. -/
theorem C57_settings {w : Writer σ γ} (hw : WriterOk w) {q : Prop} {s : Sched σ} (h : Reach w q s) :
    (∀ id o s', s.setSendOrder id o = .ok s' → ∃ x, imFind s.map id = some x ∧
      s'.map = imSet s.map id { x with fair := true, order := o }) ∧
    (∀ id g s', s.setSendGroup id g = .ok s' → ∃ x, imFind s.map id = some x ∧
      s'.map = imSet s.map id { x with group := g }) ∧
    (∀ id b s', s.setFairness id b = .ok s' → ∃ x, imFind s.map id = some x ∧
      s'.map = imSet s.map id { x with fair := b, group := if b then x.group else none }) := by
  have hs := reach_ok hw h
  refine ⟨fun id o s' he => ?_, fun id g s' he => ?_, fun id b s' he => ?_⟩
  · rcases setSendOrder_spec hs id o with ⟨s1, k1, _, x, k2, k3, _⟩ | ⟨k1, _⟩
    · rw [he] at k1
      obtain rfl := Except.ok.inj k1
      exact ⟨x, k2, k3⟩
    · rw [he] at k1; cases k1
  · rcases setSendGroup_spec hs id g with ⟨s1, k1, _, x, k2, k3, _⟩ | ⟨k1, _⟩ | ⟨k1, _⟩
    · rw [he] at k1
      obtain rfl := Except.ok.inj k1
      exact ⟨x, k2, k3⟩
    · rw [he] at k1; cases k1
    · rw [he] at k1; cases k1
  · rcases setFairness_spec hs id b with ⟨s1, k1, _, x, k2, k3, _⟩ | ⟨k1, _⟩
    · rw [he] at k1
      obtain rfl := Except.ok.inj k1
      exact ⟨x, k2, k3⟩
    · rw [he] at k1; cases k1

example : (fourSet.setSendGroup 4 (some 7)).toOption.map places =
    some [(0, some 5, 12), (0, none, 8), (7, none, 4)] := by decide +kernel

/-- Ended streams are removed, and only those, as long as only acknowledgments end streams.  Missing:
streams that end in another way, which stay (`C57_ended_stream_stays`). -/
theorem C57_ended_removed_partial {w : Writer σ γ} (hw : WriterOk w) (hn : WriterEnds w) {s s' : Sched σ} {b : Bool}
    (h : Reach w True s) (he : s.removeEnded w = .ok (s', b)) :
    s'.map = s.map.filter (fun e => !w.ended e.2.st) ∧ (b = true ↔ ∃ e ∈ s.map, w.ended e.2.st = true) := by
  have h1 := reach_ok hw h
  have h2 := reach_seen hw hn h
  obtain ⟨s1, b1, k1, _, k3, k4⟩ := removeEnded_spec w h1
  rw [he] at k1
  obtain ⟨rfl, rfl⟩ := Prod.mk.inj (Except.ok.inj k1)
  cases hE : s.hasEnded with
  | true => exact ⟨(k4 hE).1, (k4 hE).2.2⟩
  | false =>
    obtain ⟨rfl, rfl⟩ := k3 hE
    have hnone : ∀ e ∈ s'.map, w.ended e.2.st = false := by
      intro e he
      cases hh : w.ended e.2.st with
      | false => rfl
      | true =>
        have := h2 e.1 e.2 (h1.keys.find he) hh
        rw [hE] at this
        cases this
    refine ⟨?_, ?_⟩
    · symm
      rw [List.filter_eq_self]
      intro e he
      rw [hnone e he]
      rfl
    · constructor
      · intro hh; cases hh
      · rintro ⟨e, he, hh⟩
        rw [hnone e he] at hh
        cases hh

example : ∃ s, (fourSet.acked toy 8 (fun st => (st.1, true))).removeEnded toy = .ok (s, true) ∧
    s.map.map (·.1) = [0, 4, 12] ∧ places s = [(0, some 5, 12), (0, none, 4)] :=
  ⟨{ map := [(0, ⟨false, none, none, (10, false)⟩), (4, ⟨true, none, none, (30, false)⟩),
      (12, ⟨true, some 5, none, (30, false)⟩)],
     groups := [(0, { ordered := [(5, ⟨[12], 0⟩)], regular := ⟨[4], 0⟩ })] }, by decide +kernel, by decide +kernel,
    by decide +kernel⟩

/-- The application writes three bytes and commits to delivering them. -/
def commitThree (s : Send.Stream) : Send.Stream :=
  match s.sendInternal { limit := 1000 } [1, 2, 3] false with
  | .ok (s, _, _) => s.commit.1
  | .error _ => s

/-- What STOP_SENDING does (streams.rs:193-198). -/
def stopSending (err : Nat) (s : Send.Stream) : Send.Stream := s.dropCommitment.reset err

/-- A stream that the application resets after it committed to three bytes; the packets with the data
and the reset are sent, and the reset is acknowledged. -/
def resetAcked : Option (Sched Send.Stream) :=
  execs (sendWriter 0 0) {} [.insert 0 (.new 0 1000 { limit := 1000 }), .touch 0 commitThree,
    .write { limit := 1000 } 1200, .touch 0 (·.reset 7), .write { limit := 1000 } 1200, .acked 0 (·.resetAcked)]

/-- **An ended stream can stay.**  If now STOP_SENDING arrives, the data is abandoned and the stream has
ended, but that is not noted: cleaning up leaves it, and does so until another stream ends. -/
theorem C57_ended_stream_stays :
    ∃ s, resetAcked = some s ∧
      ((imFind (s.touch 0 (stopSending 9)).map 0).any fun x => (sendWriter 0 0).ended x.st) = true ∧
      (s.touch 0 (stopSending 9)).removeEnded (sendWriter 0 0) = .ok (s.touch 0 (stopSending 9), false) := by
  have h : (resetAcked.any fun s =>
      ((imFind (s.touch 0 (stopSending 9)).map 0).any fun x => (sendWriter 0 0).ended x.st) &&
      !(s.touch 0 (stopSending 9)).hasEnded) = true := by decide +kernel
  cases hr : resetAcked with
  | none => rw [hr] at h; cases h
  | some s =>
    rw [hr] at h
    obtain ⟨h1, h2⟩ := Bool.and_eq_true_iff.mp (show (_ && _) = true from h)
    refine ⟨s, rfl, h1, ?_⟩
    unfold Sched.removeEnded
    rw [if_pos h2]

/-! ### C44: round robin -/

/-- A pass over a bucket visits each stream exactly once, and then ends. -/
theorem C44_pass_visits_each_once (g : Og) (hn : g.vec.Nodup) :
    (It.visit g.vec.length g.iter).2.Perm g.vec ∧ (It.visit g.vec.length g.iter).2.Nodup ∧
    ∀ k, g.vec.length ≤ k → (It.visit k g.iter).2 = (It.visit g.vec.length g.iter).2 := by
  have h : ∀ k, g.vec.length ≤ k → (It.visit k g.iter).2 = g.order := by
    intro k hk
    rw [(It.visit_spec g.iter_ok).1, Og.iter_rest, List.take_of_length_le]
    rw [Og.order_length]
    exact hk
  have hp : g.order.Perm g.vec := rot_perm _ _
  rw [h _ (Nat.le_refl _)]
  exact ⟨hp, hp.symm.nodup hn, fun k hk => h k hk⟩

example : (It.visit 3 (Og.iter ⟨[0, 4, 8], 1⟩)).2 = [4, 8, 0] := by decide

/-- A pass that stops after `k` visits is taken up by the next: the next pass starts with the streams
not visited, and then visits the others in the same order. -/
theorem C44_resumes (g : Og) (k : Nat) (hk : k ≤ g.vec.length) :
    (It.visit g.vec.length (It.visit k g.iter).1.g.iter).2 =
      (It.visit g.vec.length g.iter).2.drop k ++ (It.visit g.vec.length g.iter).2.take k := by
  have hfull : ∀ g' : Og, g'.vec = g.vec → (It.visit g.vec.length g'.iter).2 = g'.order := by
    intro g' hg'
    rw [(It.visit_spec g'.iter_ok).1, Og.iter_rest, List.take_of_length_le]
    rw [Og.order_length, hg']
    exact Nat.le_refl _
  have hv : (It.visit k g.iter).1.g.vec = g.vec := by
    rw [(It.visit_spec g.iter_ok).2, Og.iter_g]
  rw [hfull _ hv, hfull g rfl]
  by_cases he : g.vec = []
  · unfold Og.order
    rw [hv, he]
    simp [rot]
  · have hpos : 0 < g.vec.length := List.length_pos_iff.mpr he
    have hnext := It.visit_next (k := k) g.iter_ok (by rw [Og.iter_rest, Og.order_length]; exact hk)
    rw [Og.iter_g] at hnext
    dsimp only at hnext
    unfold Og.order
    rw [hv, ← rot_rot g.vec _ k (clamp_lt hpos) hk, ← hnext]
    congr 1
    have hlt : (It.visit k g.iter).1.g.next < g.vec.length := by
      have : ∀ k (i : It), i.Ok → i.g.vec ≠ [] → (It.visit k i).1.g.next < i.g.vec.length := by
        intro k
        induction k with
        | zero => intro i hi hv; exact hi.next hv
        | succ k ih =>
          intro i hi hv
          unfold It.visit
          rcases It.step_spec hi with ⟨h1, h2⟩ | ⟨i', id, h1, h2, h3, h4⟩
          · rw [h1]; exact hi.next hv
          · rw [h1]
            have := ih i' h2 (by rw [h3]; exact hv)
            rw [h3] at this
            exact this
      have := this k g.iter g.iter_ok (by rw [Og.iter_g]; exact he)
      rw [Og.iter_g] at this
      exact this
    rw [clamp_of_lt hlt, Nat.mod_eq_of_lt hlt]

example : (It.visit 3 (It.visit 2 (Og.iter ⟨[0, 4, 8], 1⟩)).1.g.iter).2 = [0, 4, 8] := by decide

/-- In every history, the streams of a bucket differ. -/
theorem C44_buckets_distinct {w : Writer σ γ} (hw : WriterOk w) {q : Prop} {s : Sched σ} (h : Reach w q s)
    {gid : Nat} {u : Queues} (hq : (gid, u) ∈ s.groups) (o : Option Nat) : (u.bucket o).vec.Nodup := by
  have hs := reach_ok hw h
  exact ((hs.gw.q gid u (hs.gw.keys.find hq)).bucket o).nodup

example : fourSet.groups.map (fun e => (e.2.bucket none).vec) = [[4, 8]] := by decide +kernel

/-- A stream removed at or after the cursor leaves the order of the others.  Missing: a stream removed
before the cursor, for which this is false (`C44_passed_over_after_removal`). -/
theorem C44_removal_partial (g g' : Og) (id : Nat) (hn : g.vec.Nodup) (hlt : g.next < g.vec.length)
    (hid : id ∈ g.vec.drop g.next) (h : g.remove id = .ok g') :
    (It.visit g'.vec.length g'.iter).2 = (It.visit g.vec.length g.iter).2.filter (fun x => decide (x ≠ id)) := by
  have hfull : ∀ g' : Og, (It.visit g'.vec.length g'.iter).2 = g'.order := by
    intro g'
    rw [(It.visit_spec g'.iter_ok).1, Og.iter_rest, List.take_of_length_le]
    rw [Og.order_length]
    exact Nat.le_refl _
  rw [hfull, hfull]
  have hmem : id ∈ g.vec := List.mem_of_mem_drop hid
  unfold Og.remove at h
  rw [if_pos hmem] at h
  obtain rfl := Except.ok.inj h
  have hsplit : g.vec.take g.next ++ g.vec.drop g.next = g.vec := List.take_append_drop _ _
  have hnot : id ∉ g.vec.take g.next := by
    intro hh
    rw [← hsplit] at hn
    exact (List.nodup_append.mp hn).2.2 id hh id hid rfl
  have htake : (g.vec.take g.next).filter (fun x => decide (x ≠ id)) = g.vec.take g.next := by
    rw [List.filter_eq_self]
    intro x hx
    exact decide_eq_true (fun hh => hnot (hh ▸ hx))
  have hvec : g.vec.filter (fun x => decide (x ≠ id)) =
      g.vec.take g.next ++ (g.vec.drop g.next).filter (fun x => decide (x ≠ id)) := by
    conv => lhs; rw [← hsplit]
    rw [List.filter_append, htake]
  have hlt' : (g.vec.take g.next).length = g.next := by rw [List.length_take]; omega
  unfold Og.order
  dsimp only
  rw [clamp_of_lt hlt, hvec]
  unfold rot
  rw [List.filter_append, htake]
  generalize (g.vec.drop g.next).filter (fun x => decide (x ≠ id)) = r
  generalize g.vec.take g.next = t at hlt'
  rw [List.length_append]
  cases r with
  | nil =>
    have : clamp g.next (t.length + 0) = 0 := by
      unfold clamp
      rw [if_pos (by omega)]
    rw [List.append_nil, show ([] : List Nat).length = 0 from rfl, this]
    simp
  | cons a r =>
    rw [clamp_of_lt (by rw [List.length_cons]; omega), ← hlt', List.drop_left, List.take_left]

example : (Og.remove ⟨[0, 4, 8], 1⟩ 4).toOption.map (fun g => (It.visit 2 g.iter).2) = some [8, 0] := by decide

/-- A stream added after the streams before the cursor leaves the order of the others.  Missing: a
stream added before the cursor, whose successors move by one place. -/
theorem C44_insertion_partial (g g' : Og) (id : Nat) (ha : Asc g.vec) (hlt : g.next < g.vec.length)
    (hid : ∀ x ∈ g.vec.take g.next, x < id) (h : g.add id = .ok g') :
    (It.visit g'.vec.length g'.iter).2.filter (fun x => decide (x ≠ id)) = (It.visit g.vec.length g.iter).2 := by
  have hfull : ∀ g' : Og, (It.visit g'.vec.length g'.iter).2 = g'.order := by
    intro g'
    rw [(It.visit_spec g'.iter_ok).1, Og.iter_rest, List.take_of_length_le]
    rw [Og.order_length]
    exact Nat.le_refl _
  rw [hfull, hfull]
  have hlt' : (g.vec.take g.next).length = g.next := by rw [List.length_take]; omega
  have key : ∃ a b, g.vec.drop g.next = a ++ b ∧ g' = { g with vec := g.vec.take g.next ++ (a ++ id :: b) } ∧
      id ∉ g.vec := by
    have hsplit : g.vec.take g.next ++ g.vec.drop g.next = g.vec := List.take_append_drop _ _
    have ins : ∀ g', g.insert id = .ok g' → ∃ a b, g.vec.drop g.next = a ++ b ∧
        g' = { g with vec := g.vec.take g.next ++ (a ++ id :: b) } ∧ id ∉ g.vec := by
      intro g' hi
      unfold Og.insert at hi
      split at hi
      · cases hi
      · rename_i hni
        have hl : g.vec.filter (fun x => decide (x < id)) =
            g.vec.take g.next ++ (g.vec.drop g.next).filter (fun x => decide (x < id)) := by
          conv => lhs; rw [← hsplit]
          rw [List.filter_append]
          congr 1
          rw [List.filter_eq_self]
          exact fun x hx => decide_eq_true (hid x hx)
        have hr : g.vec.filter (fun x => decide (id < x)) = (g.vec.drop g.next).filter (fun x => decide (id < x)) := by
          conv => lhs; rw [← hsplit]
          rw [List.filter_append]
          have : (g.vec.take g.next).filter (fun x => decide (id < x)) = [] := by
            rw [List.filter_eq_nil_iff]
            intro x hx
            have := hid x hx
            rw [decide_eq_true_eq]
            omega
          rw [this]
          rfl
        refine ⟨(g.vec.drop g.next).filter (fun x => decide (x < id)),
          (g.vec.drop g.next).filter (fun x => decide (id < x)), ?_, ?_, hni⟩
        · have hasc : Asc (g.vec.drop g.next) := List.Pairwise.drop ha
          have hnd : id ∉ g.vec.drop g.next := fun hh => hni (List.mem_of_mem_drop hh)
          generalize g.vec.drop g.next = d at hasc hnd
          induction d with
          | nil => rfl
          | cons y d ih =>
            obtain ⟨hy, hd⟩ := List.pairwise_cons.mp hasc
            have hny : y ≠ id := fun hh => hnd (hh ▸ List.mem_cons_self)
            have ih := ih hd (fun hh => hnd (List.mem_cons_of_mem _ hh))
            by_cases hlt : y < id
            · have e1 : (y :: d).filter (fun x => decide (x < id)) = y :: d.filter (fun x => decide (x < id)) :=
                List.filter_cons_of_pos (decide_eq_true hlt)
              have e2 : (y :: d).filter (fun x => decide (id < x)) = d.filter (fun x => decide (id < x)) :=
                List.filter_cons_of_neg (by rw [decide_eq_true_eq]; omega)
              rw [e1, e2, List.cons_append, ← ih]
            · have h0 : (y :: d).filter (fun x => decide (x < id)) = [] := by
                rw [List.filter_eq_nil_iff]
                intro x hx
                rw [decide_eq_true_eq]
                rcases List.mem_cons.mp hx with rfl | hx
                · exact hlt
                · have := hy x hx; omega
              have h1 : (y :: d).filter (fun x => decide (id < x)) = y :: d := by
                rw [List.filter_eq_self]
                intro x hx
                apply decide_eq_true
                rcases List.mem_cons.mp hx with rfl | hx
                · omega
                · have := hy x hx; omega
              rw [h0, h1]
              rfl
        · have := (Except.ok.inj hi).symm
          rw [this]
          unfold sortedInsert
          rw [hl, hr, List.append_assoc]
    unfold Og.add at h
    split at h
    · rename_i last hlast
      split at h
      · rename_i hll
        obtain rfl := Except.ok.inj h
        refine ⟨g.vec.drop g.next, [], by simp, ?_, ?_⟩
        · unfold Og.push
          rw [← List.append_assoc, hsplit]
        · intro hh
          have : ∀ x ∈ g.vec, x ≤ last := by
            intro x hx
            obtain ⟨l, hl⟩ := List.getLast?_eq_some_iff.mp hlast
            rw [hl] at hx ha
            rcases List.mem_append.mp hx with hx | hx
            · exact Nat.le_of_lt ((List.pairwise_append.mp ha).2.2 x hx last List.mem_cons_self)
            · rw [List.mem_singleton.mp hx]; exact Nat.le_refl _
          have := this id hh
          omega
      · exact ins g' h
    · exact ins g' h
  obtain ⟨a, b, h1, rfl, hni⟩ := key
  unfold Og.order
  dsimp only
  rw [clamp_of_lt hlt, clamp_of_lt (by rw [List.length_append, hlt', List.length_append, List.length_cons]; omega)]
  unfold rot
  rw [h1]
  have hna : ∀ l : List Nat, (∀ x ∈ l, x ∈ g.vec) → l.filter (fun x => decide (x ≠ id)) = l := by
    intro l hl
    rw [List.filter_eq_self]
    intro x hx
    exact decide_eq_true (fun hh => hni (hh ▸ hl x hx))
  have ht := hna (g.vec.take g.next) (fun x hx => List.mem_of_mem_take hx)
  have hab : ∀ x ∈ a ++ b, x ∈ g.vec := fun x hx => List.mem_of_mem_drop (h1 ▸ hx)
  have hfa := hna a (fun x hx => hab x (List.mem_append_left _ hx))
  have hfb := hna b (fun x hx => hab x (List.mem_append_right _ hx))
  generalize g.vec.take g.next = t at hlt' ht
  rw [← hlt', List.drop_left, List.take_left, List.filter_append, List.filter_append, List.filter_cons_of_neg (by simp),
    ht, hfa, hfb]

example : (Og.add ⟨[0, 4, 8], 1⟩ 6).toOption.map (fun g => (It.visit 4 g.iter).2) = some [4, 6, 8, 0] := by decide

/-- **The property does not hold in full.**  After a visit to stream 0 the next pass starts with
stream 4.  But if stream 0 is removed, the next pass starts with stream 8. -/
theorem C44_passed_over_after_removal :
    ∃ g g' : Og, g = (It.visit 1 (Og.iter ⟨[0, 4, 8], 0⟩)).1.g ∧ g.remove 0 = .ok g' ∧
      (It.visit 3 g.iter).2 = [4, 8, 0] ∧ (It.visit 2 g'.iter).2 = [8, 4] :=
  ⟨_, ⟨[4, 8], 1⟩, rfl, by decide, by decide, by decide⟩

/-- On the fast path, a fair stream that always has data is offered the packet at least once in as many
packets as there are streams, whatever the others do. -/
theorem C44_offered_within {w : Writer σ γ} (hw : WriterOk w) {q : Prop} {s : Sched σ} (h : Reach w q s)
    (hs : s.single = true) {id : Nat} {x : Strm σ} (hx : imFind s.map id = some x) (hf : x.fair = true)
    (calls : List (Call σ γ)) (hc : s.map.length ≤ calls.length)
    (hhas : ∀ c ∈ calls, ∀ st, w.has (c.upd id st) = true) :
    ∃ log ∈ packets w s calls, ∃ o ∈ log, o.id = id := by
  have hok := reach_ok hw h
  obtain ⟨j, hj⟩ := List.getElem?_of_mem (mem_of_imFind hx)
  have hlt : j < s.map.length := (List.getElem?_eq_some_iff.mp hj).1
  obtain ⟨d, hd, hjd⟩ := exists_dist (clamp_lt (n := s.rrNext) (show 0 < s.map.length by omega)) hlt
  exact offered_within hw d s calls j id x hok hs hj hf hd hjd (by omega) hhas

def fair3 : Sched (Nat × Bool) := (execs toy four [.fair 4 true, .fair 8 true, .fair 12 true]).getD {}

/-- Packets of 20 bytes, and streams that always have 30. -/
def busy : Call (Nat × Bool) Unit := ⟨fun id _ => if id = 0 then (0, false) else (30, false), (), 20⟩

example : fair3.single = true ∧ packets toy fair3 [busy, busy, busy, busy] =
    [[⟨4, 20, true, false⟩], [⟨8, 20, true, false⟩], [⟨12, 20, true, false⟩], [⟨4, 20, true, false⟩]] := by
  decide +kernel

/-- With several groups, or orders, each group gets a turn at least once in as many packets as there
are groups. -/
theorem C44_group_offered_within {w : Writer σ γ} (hw : WriterOk w) {q : Prop} {s : Sched σ} (h : Reach w q s)
    (hs : s.single = false) {id : Nat} {x : Strm σ} (hx : imFind s.map id = some x) (hf : x.fair = true)
    (calls : List (Call σ γ)) (hc : s.groups.length ≤ calls.length) :
    ∃ log ∈ packets w s calls, ∃ o ∈ log, ∃ y, imFind s.map o.id = some y ∧ y.fair = true ∧ y.group = x.group := by
  have hok := reach_ok hw h
  have hq := hok.fair hx hf
  have hfind : ∃ q, imFind s.groups (x.group.getD nullGroup) = some q := by
    cases hh : imFind s.groups (x.group.getD nullGroup) with
    | some q => exact ⟨q, rfl⟩
    | none =>
      unfold queuedIn queuesOf at hq
      rw [hh] at hq
      exact absurd hq (Queues.not_mem_nil _ _)
  obtain ⟨q, hq⟩ := hfind
  obtain ⟨j, hj⟩ := List.getElem?_of_mem (mem_of_imFind hq)
  have hlt : j < s.groups.length := (List.getElem?_eq_some_iff.mp hj).1
  obtain ⟨d, hd, hjd⟩ := exists_dist (clamp_lt (n := s.groupNext) (show 0 < s.groups.length by omega)) hlt
  obtain ⟨log, hlog, o, ho, k, hk⟩ := group_within hw d s calls j _ q hok hs hj hd hjd (by omega)
  obtain ⟨y, hy, hyf, hyg, _⟩ := (hok.mem _ _ _).mp hk
  refine ⟨log, hlog, o, ho, y, hy, hyf, ?_⟩
  have hnx := hok.nn id x hx
  have hny := hok.nn o.id y hy
  cases hgx : x.group with
  | none =>
    cases hgy : y.group with
    | none => rfl
    | some g =>
      rw [hgx, hgy] at hyg
      rw [hgy] at hny
      exact absurd (congrArg some hyg) hny
  | some g =>
    cases hgy : y.group with
    | none =>
      rw [hgx, hgy] at hyg
      rw [hgx] at hnx
      exact absurd (congrArg some hyg.symm) hnx
    | some g' => rw [hgx, hgy] at hyg; exact congrArg some hyg

def grouped : Sched (Nat × Bool) :=
  (execs toy four [.fair 4 true, .fair 8 true, .group 8 (some 3), .fair 12 true, .group 12 (some 3)]).getD {}

example : grouped.single = false ∧ packets toy grouped [busy, busy, busy, busy] =
    [[⟨4, 20, true, false⟩], [⟨8, 20, true, false⟩], [⟨4, 20, true, false⟩], [⟨12, 20, true, false⟩]] := by
  decide +kernel

/-- A stream that fills the packet, and others that do. -/
def unfairBusy : Call (Nat × Bool) Unit := ⟨fun _ _ => (30, false), (), 20⟩

def two : Sched (Nat × Bool) :=
  (execs toy ((({} : Sched (Nat × Bool)).insert 0 (10, false)).insert 4 (30, false) |>.insert 8 (30, false))
    [.fair 4 true, .fair 8 true]).getD {}

/-- Packets that unfair stream 0 fills, in turn with packets that it leaves alone. -/
def alternate : Nat → List (Call (Nat × Bool) Unit)
  | 0 => []
  | n + 1 => unfairBusy :: busy :: alternate n

/-- The state after one packet. -/
def after (w : Writer σ γ) (s : Sched σ) (c : Call σ γ) : Sched σ := ((s.update c.upd).writeFrames w c.sh c.rem).1

/-- **A fair stream can starve.**  Streams 4 and 8 are equal and always have data.  If unfair stream 0
fills every other packet, stream 4 is offered a full packet each time, which counts as its turn, and
stream 8 gets all the packets that stream 0 leaves: for any number of packets, stream 4 never gets a
single byte of room. -/
theorem C44_starved_behind_unfair (n : Nat) :
    (∀ log ∈ packets toy two (alternate n), ∀ o ∈ log, o.id = 4 → o.room = 0) ∧
    ((packets toy two (alternate n)).flatten.filter (fun o => o.id = 8)).length = n ∧
    (∀ log ∈ packets toy two (alternate n), ∀ o ∈ log, o.id = 8 → o.wrote = true) := by
  have h0 : ∀ s : Sched (Nat × Bool), ∀ n, packets toy s (alternate (n + 1)) =
      ((s.update unfairBusy.upd).writeFrames toy () 20).2.calls ::
      (((after toy s unfairBusy).update busy.upd).writeFrames toy () 20).2.calls ::
      packets toy (after toy (after toy s unfairBusy) busy) (alternate n) := fun _ _ => rfl
  have hs : ∃ s1 : Sched (Nat × Bool), after toy (after toy two unfairBusy) busy = s1 ∧
      after toy (after toy s1 unfairBusy) busy = s1 ∧
      ((two.update unfairBusy.upd).writeFrames toy () 20).2.calls = [⟨0, 20, true, false⟩, ⟨4, 0, false, false⟩] ∧
      (((after toy two unfairBusy).update busy.upd).writeFrames toy () 20).2.calls = [⟨8, 20, true, false⟩] ∧
      ((s1.update unfairBusy.upd).writeFrames toy () 20).2.calls = [⟨0, 20, true, false⟩, ⟨4, 0, false, false⟩] ∧
      (((after toy s1 unfairBusy).update busy.upd).writeFrames toy () 20).2.calls = [⟨8, 20, true, false⟩] :=
    ⟨_, rfl, by decide +kernel, by decide +kernel, by decide +kernel, by decide +kernel, by decide +kernel⟩
  obtain ⟨s1, e1, e2, c1, c2, c3, c4⟩ := hs
  have hform : ∀ n, packets toy s1 (alternate n) =
      (List.replicate n [[(⟨0, 20, true, false⟩ : Offer), ⟨4, 0, false, false⟩], [⟨8, 20, true, false⟩]]).flatten := by
    intro n
    induction n with
    | zero => rfl
    | succ n ih => rw [h0, c3, c4, e2, ih]; rfl
  have hform2 : packets toy two (alternate n) =
      (List.replicate n [[(⟨0, 20, true, false⟩ : Offer), ⟨4, 0, false, false⟩], [⟨8, 20, true, false⟩]]).flatten := by
    cases n with
    | zero => rfl
    | succ n => rw [h0, c1, c2, e1, hform]; rfl
  rw [hform2]
  have hin : ∀ log ∈ (List.replicate n [[(⟨0, 20, true, false⟩ : Offer), ⟨4, 0, false, false⟩], [⟨8, 20, true, false⟩]]).flatten,
      log = [⟨0, 20, true, false⟩, ⟨4, 0, false, false⟩] ∨ log = [⟨8, 20, true, false⟩] := by
    intro log hlog
    obtain ⟨l, hl, hll⟩ := List.mem_flatten.mp hlog
    rw [List.mem_replicate] at hl
    rw [hl.2] at hll
    rcases List.mem_cons.mp hll with h | h
    · exact Or.inl h
    · exact Or.inr (List.mem_singleton.mp h)
  refine ⟨fun log hlog o ho => ?_, ?_, fun log hlog o ho => ?_⟩
  · rcases hin log hlog with rfl | rfl <;>
      simp only [List.mem_cons, List.not_mem_nil, or_false] at ho
    · rcases ho with rfl | rfl <;> decide
    · rcases ho with rfl; decide
  · clear hform2 hin
    induction n with
    | zero => rfl
    | succ n ih =>
      rw [List.replicate_succ, List.flatten_cons, List.flatten_append, List.filter_append, List.length_append, ih]
      have : ((([[(⟨0, 20, true, false⟩ : Offer), ⟨4, 0, false, false⟩], [⟨8, 20, true, false⟩]]).flatten.filter
        (fun o => o.id = 8))).length = 1 := by decide
      rw [this]
      omega
  · rcases hin log hlog with rfl | rfl <;>
      simp only [List.mem_cons, List.not_mem_nil, or_false] at ho
    · rcases ho with rfl | rfl <;> decide
    · rcases ho with rfl; decide

/-! ### C58: send order -/

/-- Streams without fairness are offered the packet first, in order of creation and at most once, and
all with data are unless the packet is full; then come the fair streams. -/
theorem C58_unfair_first {w : Writer σ γ} (hw : WriterOk w) {q : Prop} {s : Sched σ} (h : Reach w q s)
    (sh : γ) (rem : Nat) :
    ∃ os1 os2, (s.writeFrames w sh rem).2.calls = os1 ++ os2 ∧
      (os1.map (·.id)).Sublist (s.map.map (·.1)) ∧
      (∀ o ∈ os1, ∃ x, imFind s.map o.id = some x ∧ x.fair = false) ∧
      (∀ o ∈ os2, ∃ x, imFind s.map o.id = some x ∧ x.fair = true) ∧
      ((s.writeFrames w sh rem).2.rem < 2 ∨
        ∀ id x, imFind s.map id = some x → x.fair = false → w.has x.st = true → id ∈ os1.map (·.id)) := by
  have hok := reach_ok hw h
  obtain ⟨e1, os1, os2, k1, k2, k3, k4, k5, k6, _, _, _, k10, k11⟩ := writeFrames_spec hw hok sh rem
  refine ⟨os1, os2, k11, k2, k3, ?_, ?_⟩
  · intro o ho
    cases k10 with
    | none _ _ hh => rw [hh] at ho; cases ho
    | fast r _ _ _ _ hh _ =>
      obtain ⟨x, hx, hf⟩ := hh o ho
      obtain ⟨st, hst⟩ := sets_find k1.sets.symm o.id hx
      exact ⟨_, hst, hf⟩
    | slow r _ _ _ hh _ =>
      obtain ⟨g, k, hq⟩ := hh.2 o ho
      obtain ⟨x, hx, hf, _⟩ := (hok.mem _ _ _).mp hq
      exact ⟨x, hx, hf⟩
  · rcases k4 with ⟨o, ho, hot⟩ | k4
    · exact Or.inl (Nat.lt_of_le_of_lt k6.rem (k1.full o ho hot))
    · exact Or.inr k4

example : (fourSet.writeFrames toy () 100).2.calls =
    [⟨0, 100, true, true⟩, ⟨12, 90, true, true⟩, ⟨12, 60, false, true⟩, ⟨4, 60, true, true⟩, ⟨12, 30, false, true⟩,
      ⟨8, 30, true, false⟩] := by decide +kernel

/-- Send order is strict within a group: before a stream is offered the packet, every fair stream of
its group with a higher order was, wrote no data although there was room, and nothing was written
since. -/
theorem C58_send_order {w : Writer σ γ} (hw : WriterOk w) {q : Prop} {s : Sched σ} (h : Reach w q s)
    (sh : γ) (rem : Nat) (pre post : List Offer) (o : Offer)
    (hc : (s.writeFrames w sh rem).2.calls = pre ++ o :: post) (b : Nat) (xa xb : Strm σ)
    (ha : imFind s.map o.id = some xa) (hb : imFind s.map b = some xb) (hfa : xa.fair = true) (hfb : xb.fair = true)
    (hg : xb.group = xa.group) (hh : higher xb.order xa.order) :
    ∃ p c r, pre = p ++ c :: r ∧ c.id = b ∧ ∀ y ∈ c :: r, y.wrote = false ∧ y.more = true ∧
      ∃ xy, imFind s.map y.id = some xy ∧ xy.fair = true ∧ xy.group = xa.group := by
  have hok := reach_ok hw h
  obtain ⟨e1, os1, os2, k1, k2, k3, k4, k5, k6, _, _, _, k10, k11⟩ := writeFrames_spec hw hok sh rem
  have hqa := hok.fair ha hfa
  have hqb := hok.fair hb hfb
  rw [k11] at hc
  rcases append_eq_split hc with ⟨q, hq⟩ | ⟨q, hq1, hq2⟩
  · obtain ⟨x, hx, hxf⟩ := k3 o (by rw [hq]; exact List.mem_append_right _ List.mem_cons_self)
    rw [ha] at hx
    obtain rfl := Option.some.inj hx
    rw [hfa] at hxf
    cases hxf
  · have hslow : OrdQ s.groups os2 := by
      cases k10 with
      | none _ _ hh => rw [hh]; exact OrdQ.nil _
      | slow r _ _ _ hh _ => exact hh
      | fast r _ hs _ _ _ _ =>
        exfalso
        unfold Sched.single at hs
        split at hs
        · rename_i gid q hgr
          have hord : q.ordered = [] := List.isEmpty_iff.mp hs
          unfold queuedIn queuesOf at hqb
          cases hbo : xb.order with
          | none => rw [hbo] at hh; exact hh
          | some k =>
            rw [hbo, hgr, imFind_cons] at hqb
            split at hqb
            · have hqb : b ∈ ((SMap.find q.ordered k).getD {}).vec := hqb
              rw [hord] at hqb
              cases hqb
            · cases hqb
        · cases hs
    obtain ⟨p, c, r, e1, e2, e3⟩ := hslow.1 q o post hq2 b ⟨_, _, _, hqb, by rw [hg]; exact hqa, hh⟩
    refine ⟨os1 ++ p, c, r, by rw [hq1, e1, List.append_assoc], e2, fun y hy => ?_⟩
    obtain ⟨t1, g, o1, o2, t2, t3⟩ := e3 y hy
    have hturn : y.wrote = false ∧ y.more = true := by
      unfold Offer.turn at t1
      cases hm : y.more with
      | false => rw [hm] at t1; cases t1
      | true =>
        rw [hm] at t1
        cases hw' : y.wrote with
        | false => exact ⟨rfl, rfl⟩
        | true => rw [hw'] at t1; cases t1
    refine ⟨hturn.1, hturn.2, ?_⟩
    obtain ⟨xy, hxy, hxf, hxg, _⟩ := (hok.mem _ _ _).mp t2
    obtain ⟨xo, hxo, _, hog, _⟩ := (hok.mem _ _ _).mp t3
    rw [ha] at hxo
    obtain rfl := Option.some.inj hxo
    refine ⟨xy, hxy, hxf, ?_⟩
    have hnx := hok.nn y.id xy hxy
    have hna := hok.nn o.id xa ha
    rw [← hog] at hxg
    cases hga : xa.group with
    | none =>
      cases hgy : xy.group with
      | none => rfl
      | some z =>
        rw [hga, hgy] at hxg
        rw [hgy] at hnx
        exact absurd (congrArg some hxg) hnx
    | some z =>
      cases hgy : xy.group with
      | none =>
        rw [hga, hgy] at hxg
        rw [hga] at hna
        exact absurd (congrArg some hxg.symm) hna
      | some z' => rw [hga, hgy] at hxg; exact congrArg some hxg

/-- Packets are filled: with several groups or orders, either there is no room left, or every fair
stream was offered the room left and wrote nothing.  On the fast path, each fair stream with data was
offered the packet. -/
theorem C58_work_conserving {w : Writer σ γ} (hw : WriterOk w) {q : Prop} {s : Sched σ} (h : Reach w q s)
    (sh : γ) (rem : Nat) :
    (s.writeFrames w sh rem).2.rem < 2 ∨
    (s.single = false → ∃ os1 os2, (s.writeFrames w sh rem).2.calls = os1 ++ os2 ∧
      (∀ o ∈ os2, o.wrote = false ∧ o.more = true) ∧
      ∀ id x, imFind s.map id = some x → x.fair = true → id ∈ os2.map (·.id)) ∧
    (s.single = true → ∀ id x, imFind s.map id = some x → x.fair = true → w.has x.st = true →
      id ∈ (s.writeFrames w sh rem).2.calls.map (·.id)) := by
  have hok := reach_ok hw h
  obtain ⟨e1, os1, os2, k1, k2, k3, k4, k5, k6, _, _, _, k10, k11⟩ := writeFrames_spec hw hok sh rem
  rw [k11]
  cases k10 with
  | none hg _ hos _ =>
    refine Or.inr ⟨fun _ => ⟨os1 ++ os2, [], by simp, (fun _ h => by cases h), fun id x hx hf => ?_⟩,
      fun hs => ?_⟩
    · have := hok.fair hx hf
      rw [hg] at this
      exact absurd this (Queues.not_mem_nil _ _)
    · unfold Sched.single at hs
      rw [hg] at hs
      cases hs
  | fast r _ hs _ _ _ hr =>
    cases r with
    | some i =>
      obtain ⟨_, ⟨o, ho, hot⟩, _⟩ := hr
      exact Or.inl (k6.full o ho hot)
    | none =>
      refine Or.inr ⟨(fun hh => by rw [hs] at hh; cases hh), fun _ id x hx hf hhas => ?_⟩
      have hx1 := k5 id x hx hf
      obtain ⟨j, hj⟩ := List.getElem?_of_mem (mem_of_imFind hx1)
      have hlt : j < e1.map.length := (List.getElem?_eq_some_iff.mp hj).1
      rw [List.map_append]
      exact List.mem_append_right _ (hr.2 j hlt id x hj hf hhas)
  | slow r _ hs _ _ hr =>
    cases r with
    | some i =>
      obtain ⟨_, ⟨o, ho, hot⟩, _⟩ := hr
      exact Or.inl (k6.full o ho hot)
    | none =>
      obtain ⟨_, x1, x2, f1, f2, f3⟩ := hr
      refine Or.inr ⟨fun _ => ⟨os1 ++ x1, x2, by rw [f1, List.append_assoc], fun o ho => ?_, fun id x hx hf => ?_⟩,
        (fun hh => by rw [hs] at hh; cases hh)⟩
      · have t1 := f2 o ho
        unfold Offer.turn at t1
        cases hm : o.more with
        | false => rw [hm] at t1; cases t1
        | true =>
          rw [hm] at t1
          cases hw' : o.wrote with
          | false => exact ⟨rfl, rfl⟩
          | true => rw [hw'] at t1; cases t1
      · exact f3 _ _ _ (hok.fair hx hf)

example : (fourSet.writeFrames toy () 200).2.rem = 100 ∧ (fourSet.writeFrames toy () 200).2.calls =
    [⟨0, 200, true, true⟩, ⟨12, 190, true, true⟩, ⟨12, 160, false, true⟩, ⟨4, 160, true, true⟩,
      ⟨12, 130, false, true⟩, ⟨8, 130, true, true⟩, ⟨12, 100, false, true⟩, ⟨4, 100, false, true⟩,
      ⟨8, 100, false, true⟩] := by decide +kernel

/-- The passes over the groups come to an end by themselves: allowing more passes changes nothing. -/
theorem C58_passes_end {w : Writer σ γ} (hw : WriterOk w) {q : Prop} {s : Sched σ} (h : Reach w q s)
    (sh : γ) (rem start k : Nat) (hk : rem < k) :
    passes w start k s.groups { map := s.map, sh, rem } = passes w start (rem + 1) s.groups { map := s.map, sh, rem } := by
  have hok := reach_ok hw h
  refine passes_enough hw hok.gw hok.uniq hok.ne start k (rem + 1) s.groups _ rfl hok.keys ?_ hk (Nat.lt_succ_self _)
  intro g o id hq
  obtain ⟨x, hx, _⟩ := (hok.mem _ _ _).mp hq
  exact List.mem_map.mpr ⟨_, mem_of_imFind hx, rfl⟩

example : (passes toy 0 201 fourSet.groups { map := fourSet.map, sh := (), rem := 200 }).2.1.rem = 110 := by
  decide +kernel

/-- The laws assumed of streams hold of the send stream modelled in `Verif.SendStream`. -/
theorem C58_laws_hold (p : Send.Prio) (split : Nat) : WriterOk (sendWriter p split) := sendWriter_ok p split

/-- The comment in the code (send_stream.rs:2207-2212) quotes the rule that a stream without an order
must not starve.  **It can**: as long as stream 0, which has an order, has data, stream 4 of the same
group, which has none, is never offered the packet. -/
theorem C58_null_order_starves (n : Nat) :
    ∀ log ∈ packets toy ((execs toy ((({} : Sched (Nat × Bool)).insert 0 (30, false)).insert 4 (30, false))
      [.order 0 (some 1), .fair 4 true]).getD {}) (List.replicate n unfairBusy), ∀ o ∈ log, o.id = 0 := by
  have hs : ∃ s : Sched (Nat × Bool), (execs toy ((({} : Sched (Nat × Bool)).insert 0 (30, false)).insert 4 (30, false))
      [.order 0 (some 1), .fair 4 true]).getD {} = s ∧
      after toy s unfairBusy = after toy (after toy s unfairBusy) unfairBusy ∧
      ((s.update unfairBusy.upd).writeFrames toy () 20).2.calls = [⟨0, 20, true, false⟩] ∧
      (((after toy s unfairBusy).update unfairBusy.upd).writeFrames toy () 20).2.calls = [⟨0, 20, true, false⟩] :=
    ⟨_, rfl, by decide +kernel, by decide +kernel, by decide +kernel⟩
  obtain ⟨s, e1, e2, c1, c2⟩ := hs
  rw [e1]
  have h0 : ∀ s : Sched (Nat × Bool), ∀ n, packets toy s (List.replicate (n + 1) unfairBusy) =
      ((s.update unfairBusy.upd).writeFrames toy () 20).2.calls ::
      packets toy (after toy s unfairBusy) (List.replicate n unfairBusy) := fun _ _ => rfl
  have hform : ∀ n, ∀ log ∈ packets toy (after toy s unfairBusy) (List.replicate n unfairBusy),
      log = [⟨0, 20, true, false⟩] := by
    intro n
    induction n with
    | zero => intro log h; cases h
    | succ n ih =>
      intro log hlog
      rw [h0, c2, ← e2] at hlog
      rcases List.mem_cons.mp hlog with h | h
      · exact h
      · exact ih log h
  intro log hlog o ho
  have : log = [⟨0, 20, true, false⟩] := by
    cases n with
    | zero => cases hlog
    | succ n =>
      rw [h0, c1] at hlog
      rcases List.mem_cons.mp hlog with h | h
      · exact h
      · exact hform n log h
  rw [this] at ho
  rw [List.mem_singleton.mp ho]

end Neqo.Sched
