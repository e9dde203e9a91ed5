import Verif.Token.Props

/-!
# C77: tokens are passed on
-/
namespace Neqo.Av
open Neqo.Codec (Bytes)
open Spec

/-- What holds for the tokens of a client, given what was saved and what was handed out. -/
structure CInv (saved : List Bytes) (c : Client) (out : List Bytes) : Prop where
  pending : c.pending.length ≤ 4
  nodup : (c.pending ++ c.old).Nodup
  old : c.old = out.drop (out.length - 8)
  saved : ∀ t ∈ c.pending ++ out, t ∈ saved
  window : ∀ i j, j < i → i ≤ j + 8 → i < out.length → out[i]? ≠ out[j]?

theorem CInv.mono {saved saved' : List Bytes} {c : Client} {out : List Bytes} (h : CInv saved c out)
    (hs : ∀ t ∈ saved, t ∈ saved') : CInv saved' c out :=
  ⟨h.pending, h.nodup, h.old, fun t ht => hs t (h.saved t ht), h.window⟩

theorem CInv.save {saved : List Bytes} {c : Client} {out : List Bytes} (h : CInv saved c out) (t : Bytes) :
    CInv (saved ++ [t]) (c.save t) out := by
  unfold Client.save
  split
  · exact h.mono (by simp +contextual)
  · next hn =>
    simp only [List.mem_append, List.mem_reverse, not_or] at hn
    have hsub : ∀ x, x ∈ (if c.pending.length ≥ 4 then c.pending.eraseIdx 0 else c.pending) → x ∈ c.pending := by
      intro x hx
      split at hx
      · exact (List.eraseIdx_sublist _ _).subset hx
      · exact hx
    have hnd := List.nodup_append.mp h.nodup
    refine ⟨?_, ?_, h.old, ?_, h.window⟩
    · dsimp only
      have := h.pending
      split
      · rw [List.length_append, List.length_eraseIdx]; split <;> simp <;> omega
      · simp; omega
    · dsimp only
      rw [List.append_assoc, List.nodup_append]
      refine ⟨?_, ?_, ?_⟩
      · split
        · exact (List.eraseIdx_sublist _ _).nodup hnd.1
        · exact hnd.1
      · simp only [List.singleton_append, List.nodup_cons]
        exact ⟨hn.1, hnd.2.1⟩
      · intro x hx y hy
        simp only [List.singleton_append, List.mem_cons] at hy
        rcases hy with rfl | hy
        · intro e
          subst e
          exact hn.2 (hsub _ hx)
        · exact hnd.2.2 x (hsub x hx) y hy
    · intro x hx
      dsimp only at hx
      simp only [List.mem_append, List.mem_singleton] at hx ⊢
      rcases hx with (hx | hx) | hx
      · exact .inl (h.saved x (List.mem_append_left _ (hsub x hx)))
      · exact .inr hx
      · exact .inl (h.saved x (List.mem_append_right _ hx))

theorem CInv.take {saved : List Bytes} {c : Client} {out : List Bytes} (h : CInv saved c out) {c' : Client} {t : Bytes}
    (ht : c.take = (c', some t)) : CInv saved c' (out ++ [t]) := by
  unfold Client.take at ht
  cases hp : c.pending.getLast? with
  | none => rw [hp] at ht; cases ht
  | some x =>
  rw [hp] at ht
  dsimp only at ht
  cases ht
  have hsplit : c.pending = c.pending.dropLast ++ [t] := by
    rw [List.getLast?_eq_some_iff] at hp
    obtain ⟨ys, hy⟩ := hp
    rw [hy]
    simp
  have hol : c.old.length ≤ 8 := by rw [h.old, List.length_drop]; omega
  have hold : (if c.old.length ≥ 8 then c.old.eraseIdx 0 else c.old) ++ [t] = (out ++ [t]).drop ((out ++ [t]).length - 8) := by
    have hlen : c.old.length = out.length - (out.length - 8) := by rw [h.old, List.length_drop]
    split
    · next h8 =>
      have : 8 ≤ out.length := by omega
      rw [List.eraseIdx_zero, h.old, List.tail_drop, List.length_append, List.length_singleton,
        List.drop_append_of_le_length (by omega)]
      congr 2
      omega
    · next h8 =>
      have h0 : out.length - 8 = 0 := by omega
      rw [h.old, h0, List.length_append, List.length_singleton]
      have : out.length + 1 - 8 = 0 := by omega
      rw [this]
      simp
  have hsub : ∀ x, x ∈ (if c.old.length ≥ 8 then c.old.eraseIdx 0 else c.old) → x ∈ c.old := by
    intro x hx
    split at hx
    · exact (List.eraseIdx_sublist _ _).subset hx
    · exact hx
  have hnd := h.nodup
  rw [hsplit, List.append_assoc, List.nodup_append] at hnd
  obtain ⟨n1, n2, n3⟩ := hnd
  rw [List.singleton_append, List.nodup_cons] at n2
  refine ⟨?_, ?_, hold, ?_, ?_⟩
  · have := h.pending
    rw [List.length_dropLast]
    omega
  · dsimp only
    rw [List.nodup_append]
    refine ⟨n1, ?_, ?_⟩
    · rw [List.nodup_append]
      refine ⟨?_, by simp, ?_⟩
      · split
        · exact (List.eraseIdx_sublist _ _).nodup n2.2
        · exact n2.2
      · intro x hx y hy e
        rw [List.mem_singleton] at hy
        subst hy
        subst e
        exact n2.1 (hsub _ hx)
    · intro x hx y hy
      rw [List.mem_append, List.mem_singleton] at hy
      rcases hy with hy | rfl
      · exact n3 x hx y (List.mem_append_right _ (hsub y hy))
      · exact n3 x hx y (by simp)
  · intro x hx
    dsimp only at hx
    simp only [List.mem_append, List.mem_singleton] at hx
    apply h.saved
    rw [hsplit]
    simp only [List.mem_append, List.mem_singleton]
    rcases hx with hx | hx | hx
    · exact .inl (.inl hx)
    · exact .inr hx
    · exact .inl (.inr hx)
  · intro i j hji hij hi
    rw [List.length_append, List.length_singleton] at hi
    rcases Nat.lt_or_ge i out.length with hlt | hge
    · rw [List.getElem?_append_left hlt, List.getElem?_append_left (by omega)]
      exact h.window i j hji hij hlt
    · have e : i = out.length := by omega
      subst e
      rw [List.getElem?_append_right (Nat.le_refl _), Nat.sub_self, List.getElem?_append_left hji]
      intro e
      have hm : t ∈ c.old := by
        rw [h.old]
        have hj : (out.drop (out.length - 8))[j - (out.length - 8)]? = out[j]? := by
          rw [List.getElem?_drop]
          congr 1
          omega
        rw [← e] at hj
        exact List.mem_of_getElem? hj
      exact n2.1 hm

theorem crun_inv (es : List CEv) : ∀ (saved : List Bytes) (c : Client) (out : List Bytes), CInv saved c out →
    CInv (saved ++ es.filterMap fun e => match e with | .save t => some t | .take => none) (crun es (c, out)).1
      (crun es (c, out)).2 := by
  induction es with
  | nil => intro saved c out h; simpa [crun] using h
  | cons e es ih =>
    intro saved c out h
    cases e with
    | save t =>
      have := ih _ _ _ (h.save t)
      simpa [crun] using this
    | take =>
      unfold crun
      cases ht : c.take with
      | mk c' o =>
        cases o with
        | none =>
          have : c' = c := by
            unfold Client.take at ht
            split at ht <;> cases ht
            rfl
          subst this
          simpa using ih _ _ _ h
        | some t => simpa using ih _ _ _ (h.take ht)

/-- A client uses only tokens that it got, and no token again while it is among the last eight
that it used; it keeps not more than four for later. -/
theorem C77_client_tokens (es : List CEv) :
    let c := (crun es (Client.new, [])).1
    let out := (crun es (Client.new, [])).2
    (∀ t ∈ out, .save t ∈ es) ∧ (∀ i j, j < i → i ≤ j + 8 → i < out.length → out[i]? ≠ out[j]?) ∧
      c.pending.length ≤ 4 ∧ c.old.length ≤ 8 := by
  intro c out
  have h := crun_inv es [] Client.new [] ⟨by decide, by decide, rfl, by simp [Client.new], by simp⟩
  refine ⟨fun t ht => ?_, h.window, h.pending, ?_⟩
  · have := h.saved t (List.mem_append_right _ ht)
    rw [List.nil_append, List.mem_filterMap] at this
    obtain ⟨e, he, hx⟩ := this
    cases e with
    | save x => cases hx; exact he
    | take => cases hx
  · show (crun es (Client.new, [])).1.old.length ≤ 8
    rw [h.old, List.length_drop]
    omega

/-- A client that has a token uses the newest one. -/
theorem C77_newest_first (c : Client) (t : Bytes) (h : t ∉ c.old) (hp : t ∉ c.pending) :
    (c.save t).take.2 = some t := by
  unfold Client.save
  rw [if_neg (by simp [h, hp])]
  unfold Client.take
  simp

example :
    crun [.save [1], .save [2], .save [1], .take, .save [2], .take, .take] (Client.new, [])
      = (⟨[], [[2], [1]]⟩, [[2], [1]]) := by decide

/-! ## The server -/

/-- The state of a sender that was asked to send the tokens `ts`. -/
structure SInv (ts : List Bytes) (s : Sender) : Prop where
  next : s.nextSeqno = ts.length
  token : ∀ t ∈ s.tokens, ts[t.seqno]? = some t.token
  nodup : (s.tokens.map (·.seqno)).Nodup

theorem write_map (ts : List Status) (r : Nat) : (write ts r).1.map (fun t => (t.seqno, t.token)) = ts.map fun t => (t.seqno, t.token) := by
  induction ts generalizing r with
  | nil => rfl
  | cons t ts ih =>
    unfold write
    split <;> simp [ih]

theorem write_mem {ts : List Status} {r n : Nat} {x : Bytes} (h : (n, x) ∈ (write ts r).2) : ⟨n, x, true⟩ ∈ ts := by
  induction ts generalizing r with
  | nil => simp [write] at h
  | cons t ts ih =>
    unfold write at h
    split at h
    · next hc =>
      simp only [List.mem_cons, Prod.mk.injEq] at h
      rcases h with ⟨h1, h2⟩ | h
      · rw [List.mem_cons]
        left
        cases t
        simp_all
      · exact List.mem_cons_of_mem _ (ih h)
    · exact List.mem_cons_of_mem _ (ih h)

theorem lost_map (ts : List Status) (n : Nat) : (markLost ts n).map (fun t => (t.seqno, t.token)) = ts.map fun t => (t.seqno, t.token) := by
  induction ts with
  | nil => rfl
  | cons t ts ih =>
    unfold markLost
    split <;> simp [ih]

theorem SInv.of_map {ts : List Bytes} {s s' : Sender} (h : SInv ts s) (hn : s'.nextSeqno = s.nextSeqno)
    (hm : s'.tokens.map (fun t => (t.seqno, t.token)) = s.tokens.map fun t => (t.seqno, t.token)) : SInv ts s' := by
  refine ⟨hn.trans h.next, ?_, ?_⟩
  · intro t ht
    have : (t.seqno, t.token) ∈ s'.tokens.map (fun t => (t.seqno, t.token)) := List.mem_map.mpr ⟨t, ht, rfl⟩
    rw [hm, List.mem_map] at this
    obtain ⟨u, hu, e⟩ := this
    simp only [Prod.mk.injEq] at e
    rw [← e.1, ← e.2]
    exact h.token u hu
  · have := congrArg (List.map Prod.fst) hm
    simp only [List.map_map, Function.comp_def] at this
    rw [this]
    exact h.nodup

theorem SInv.step {ts : List Bytes} {s : Sender} (h : SInv ts s) (e : SEv) : SInv (ts ++ added [e]) (s.step e).1 := by
  cases e with
  | add t =>
    refine ⟨by simp [Sender.step, Sender.add, added, h.next], ?_, ?_⟩
    · intro u hu
      simp only [Sender.step, Sender.add, List.mem_append, List.mem_singleton] at hu
      simp only [added, List.filterMap_cons, List.filterMap_nil]
      rcases hu with hu | rfl
      · have := h.token u hu
        rw [List.getElem?_append_left ((List.getElem?_eq_some_iff.mp this).1)]
        exact this
      · dsimp only
        rw [h.next, List.getElem?_append_right (Nat.le_refl _)]
        simp
    · simp only [Sender.step, Sender.add, List.map_append, List.map_cons, List.map_nil, List.nodup_append]
      refine ⟨h.nodup, by simp, ?_⟩
      intro x hx y hy e
      rw [List.mem_singleton] at hy
      rw [List.mem_map] at hx
      obtain ⟨u, hu, rfl⟩ := hx
      have := (List.getElem?_eq_some_iff.mp (h.token u hu)).1
      have := h.next
      omega
  | write r =>
    simp only [added, List.filterMap_cons, List.filterMap_nil, List.append_nil]
    exact h.of_map rfl (write_map _ _)
  | lost n =>
    simp only [added, List.filterMap_cons, List.filterMap_nil, List.append_nil]
    exact h.of_map rfl (lost_map _ _)
  | acked n =>
    simp only [added, List.filterMap_cons, List.filterMap_nil, List.append_nil]
    refine ⟨h.next, fun t ht => h.token t (List.mem_filter.mp ht).1, ?_⟩
    exact (List.filter_sublist.map _).nodup h.nodup

theorem added_append (a b : List SEv) : added (a ++ b) = added a ++ added b := by simp [added, List.filterMap_append]

theorem srun_append (a b : List SEv) (x : Sender × List (Nat × Bytes)) : srun (a ++ b) x = srun b (srun a x) := by
  induction a generalizing x with
  | nil => rfl
  | cons e es ih => obtain ⟨s, o⟩ := x; simp only [List.cons_append, srun, ih]

theorem srun_inv (es : List SEv) : ∀ (ts : List Bytes) (s : Sender) (out : List (Nat × Bytes)), SInv ts s →
    SInv (ts ++ added es) (srun es (s, out)).1 := by
  induction es with
  | nil => intro ts s out h; simpa [srun, added] using h
  | cons e es ih =>
    intro ts s out h
    have := ih _ _ (out ++ (s.step e).2) (h.step e)
    rw [show e :: es = [e] ++ es from rfl, added_append]
    rw [← List.append_assoc]
    exact this

def Sender.new : Sender := ⟨[], 0⟩

theorem new_inv : SInv [] Sender.new := ⟨rfl, by simp [Sender.new], by simp [Sender.new]⟩

theorem acked_gone (es : List SEv) (n : Nat) : ∀ (s : Sender) (out : List (Nat × Bytes)), n < s.nextSeqno →
    (∀ t ∈ s.tokens, t.seqno ≠ n) → ∀ t ∈ (srun es (s, out)).1.tokens, t.seqno ≠ n := by
  induction es with
  | nil => intro s out _ h; exact h
  | cons e es ih =>
    intro s out hn h
    refine ih _ _ ?_ ?_
    · cases e <;> simp only [Sender.step, Sender.add, Sender.acked] <;> omega
    · intro t ht
      have key : ∀ (l : List Status), l.map (fun t => (t.seqno, t.token)) = s.tokens.map (fun t => (t.seqno, t.token)) →
          t ∈ l → t.seqno ≠ n := by
        intro l hl htl
        have : (t.seqno, t.token) ∈ l.map (fun t => (t.seqno, t.token)) := List.mem_map.mpr ⟨t, htl, rfl⟩
        rw [hl, List.mem_map] at this
        obtain ⟨u, hu, e⟩ := this
        simp only [Prod.mk.injEq] at e
        rw [← e.1]
        exact h u hu
      cases e with
      | add x =>
        simp only [Sender.step, Sender.add, List.mem_append, List.mem_singleton] at ht
        rcases ht with ht | rfl
        · exact h t ht
        · dsimp only; omega
      | write r => exact key _ (write_map _ _) ht
      | lost m => exact key _ (lost_map _ _) ht
      | acked m => exact h t (List.mem_filter.mp ht).1

/-- Every frame that is written holds one of the tokens that were to be sent, under its own
number; and none is written again after it was acknowledged. -/
theorem C77_written_tokens (es : List SEv) (r n : Nat) (x : Bytes)
    (h : (n, x) ∈ ((srun es (Sender.new, [])).1.step (.write r)).2) :
    (added es)[n]? = some x ∧ ∀ a b, es = a ++ .acked n :: b → (added a).length ≤ n := by
  have hi := srun_inv es [] Sender.new [] new_inv
  rw [List.nil_append] at hi
  have hm := write_mem h
  refine ⟨hi.token _ hm, ?_⟩
  intro a b he
  subst he
  by_contra hlt
  have hia := srun_inv a [] Sender.new [] new_inv
  rw [List.nil_append] at hia
  rw [srun_append] at hm
  cases hs : srun a (Sender.new, []) with
  | mk s o =>
    rw [hs] at hm hia
    unfold srun at hm
    refine acked_gone b n (s.step (.acked n)).1 _ ?_ ?_ _ hm rfl
    · show n < s.nextSeqno
      have := hia.next
      dsimp only at this
      omega
    · intro t ht
      have := (List.mem_filter.mp ht).2
      simpa using this

/-- Token `n` is not to be sent. -/
def Settled (n : Nat) (ts : List Status) : Prop := ∀ t ∈ ts, t.seqno = n → t.needsSending = false

theorem write_status {ts : List Status} {r : Nat} {t : Status} (h : t ∈ (write ts r).1) :
    t ∈ ts ∨ t.needsSending = false := by
  induction ts generalizing r with
  | nil => simp [write] at h
  | cons u ts ih =>
    unfold write at h
    split at h
    · rcases List.mem_cons.mp h with rfl | h
      · exact .inr rfl
      · exact (ih h).imp (List.mem_cons_of_mem _) id
    · rcases List.mem_cons.mp h with rfl | h
      · exact .inl (List.mem_cons_self ..)
      · exact (ih h).imp (List.mem_cons_of_mem _) id

theorem write_settles {ts : List Status} {r n : Nat} {x : Bytes} (hd : (ts.map (·.seqno)).Nodup)
    (h : (n, x) ∈ (write ts r).2) : Settled n (write ts r).1 := by
  have hk : ∀ (us : List Status) (r : Nat), ∀ t ∈ (write us r).1, t.seqno ∈ us.map (·.seqno) := by
    intro us r t ht
    have : (t.seqno, t.token) ∈ (write us r).1.map (fun t => (t.seqno, t.token)) := List.mem_map.mpr ⟨t, ht, rfl⟩
    rw [write_map, List.mem_map] at this
    obtain ⟨u, hu, e⟩ := this
    simp only [Prod.mk.injEq] at e
    exact List.mem_map.mpr ⟨u, hu, e.1⟩
  induction ts generalizing r with
  | nil => simp [write] at h
  | cons u ts ih =>
    rw [List.map_cons, List.nodup_cons] at hd
    unfold write at h ⊢
    split at h
    · next hc =>
      rw [if_pos hc]
      intro t ht hn
      rcases List.mem_cons.mp h with he | h
      · rcases List.mem_cons.mp ht with rfl | ht
        · rfl
        · simp only [Prod.mk.injEq] at he
          have := hk _ _ t ht
          rw [hn, he.1] at this
          exact absurd this hd.1
      · rcases List.mem_cons.mp ht with rfl | ht
        · rfl
        · exact ih hd.2 h t ht hn
    · next hc =>
      rw [if_neg hc]
      intro t ht hn
      rcases List.mem_cons.mp ht with rfl | ht
      · have := List.mem_map_of_mem (f := (·.seqno)) (write_mem h)
        simp only at this
        rw [← hn] at this
        exact absurd this hd.1
      · exact ih hd.2 h t ht hn

theorem settled_run (es : List SEv) (n : Nat) : ∀ (s : Sender) (out : List (Nat × Bytes)), n < s.nextSeqno →
    Settled n s.tokens → .lost n ∉ es → Settled n (srun es (s, out)).1.tokens := by
  induction es with
  | nil => intro s out _ h _; exact h
  | cons e es ih =>
    intro s out hn h hl
    refine ih _ _ ?_ ?_ (fun hm => hl (List.mem_cons_of_mem _ hm))
    · cases e <;> simp only [Sender.step, Sender.add, Sender.acked] <;> omega
    · intro t ht hs
      cases e with
      | add x =>
        simp only [Sender.step, Sender.add, List.mem_append, List.mem_singleton] at ht
        rcases ht with ht | rfl
        · exact h t ht hs
        · dsimp only at hs; omega
      | write r =>
        rcases write_status (show t ∈ (write s.tokens r).1 from ht) with ht | ht
        · exact h t ht hs
        · exact ht
      | lost m =>
        have hne : m ≠ n := by rintro rfl; exact hl (List.mem_cons_self ..)
        have ht' : t ∈ markLost s.tokens m := ht
        have : ∀ (l : List Status), t ∈ markLost l m → t ∈ l := by
          intro l
          induction l with
          | nil => intro h; exact h
          | cons u l ih2 =>
            intro h2
            unfold markLost at h2
            split at h2
            · next hu =>
              rcases List.mem_cons.mp h2 with rfl | h2
              · exact absurd (hu.symm.trans hs) hne
              · exact List.mem_cons_of_mem _ h2
            · rcases List.mem_cons.mp h2 with rfl | h2
              · exact List.mem_cons_self ..
              · exact List.mem_cons_of_mem _ (ih2 h2)
        exact h t (this _ ht') hs
      | acked m => exact h t (List.mem_filter.mp ht).1 hs

/-- A token that was written is not written again unless its frame is lost. -/
theorem C77_written_once (a b : List SEv) (r r' n : Nat) (x y : Bytes)
    (h : (n, x) ∈ ((srun a (Sender.new, [])).1.step (.write r)).2) (hl : .lost n ∉ b) :
    (n, y) ∉ ((srun (a ++ .write r :: b) (Sender.new, [])).1.step (.write r')).2 := by
  intro hy
  have hi := srun_inv a [] Sender.new [] new_inv
  rw [List.nil_append] at hi
  have hm := write_mem hy
  rw [srun_append] at hm
  cases hs : srun a (Sender.new, []) with
  | mk s o =>
    rw [hs] at hm hi h
    unfold srun at hm
    dsimp only at hi h
    have hn : n < s.nextSeqno := by
      have := (List.getElem?_eq_some_iff.mp (hi.token _ (write_mem (show (n, x) ∈ (write s.tokens r).2 from h)))).1
      have := hi.next
      dsimp only at *
      omega
    have := settled_run b n (s.step (.write r)).1 (o ++ (s.step (.write r)).2) hn (write_settles hi.nodup h) hl _ hm rfl
    cases this

theorem encodeVarint_some {v : Nat} (h : v < 2 ^ 62) : ∃ e, Codec.encodeVarint v = some e := by
  have hl := Codec.encodeVarint_length v
  cases he : Codec.encodeVarint v with
  | some e => exact ⟨e, rfl⟩
  | none =>
    exfalso
    rw [he] at hl
    unfold Codec.varintLen at hl
    have h62 : v < 1 <<< 62 := by
      have : (1 <<< 62 : Nat) = 2 ^ 62 := by decide
      omega
    split at hl
    · cases hl
    split at hl
    · cases hl
    split at hl
    · cases hl
    cases hl

theorem frame_len (x : Bytes) (h : x.length < 2 ^ 62) : ((frame x).getD []).length = 1 + (Codec.varintLen x.length).getD 0 + x.length := by
  obtain ⟨e, he⟩ := encodeVarint_some h
  have hl := Codec.encodeVarint_length x.length
  rw [he] at hl
  unfold frame Codec.encodeVvec
  rw [he, ← hl]
  simp
  omega

/-- The frames fit in the packet. -/
theorem C77_written_fit (s : Sender) (r : Nat) (h : ∀ t ∈ s.tokens, t.token.length < 2 ^ 62) :
    room ((s.step (.write r)).2.map (·.2)) ≤ r := by
  show room ((write s.tokens r).2.map (·.2)) ≤ r
  generalize s.tokens = ts at h ⊢
  induction ts generalizing r with
  | nil => simp [write, room]
  | cons t ts ih =>
    unfold write
    split
    · next hc =>
      have := ih (r - t.len) (fun u hu => h u (List.mem_cons_of_mem _ hu))
      dsimp only
      simp only [List.map_cons, room, List.sum_cons, frame_len _ (h t (List.mem_cons_self ..))]
      simp only [room] at this
      have h2 := hc.2
      have h3 : t.len = 1 + (Codec.varintLen t.token.length).getD 0 + t.token.length := rfl
      omega
    · exact ih r (fun u hu => h u (List.mem_cons_of_mem _ hu))

/-- What needs to be sent is sent if there is room for it. -/
theorem write_all {ts : List Status} {r n : Nat} {x : Bytes} (h : ⟨n, x, true⟩ ∈ ts) (hr : (ts.map Status.len).sum ≤ r) :
    (n, x) ∈ (write ts r).2 := by
  induction ts generalizing r with
  | nil => cases h
  | cons t ts ih =>
    simp only [List.map_cons, List.sum_cons] at hr
    unfold write
    rcases List.mem_cons.mp h with e | h
    · subst e
      rw [if_pos ⟨rfl, by omega⟩]
      exact List.mem_cons_self ..
    · split
      · exact List.mem_cons_of_mem _ (ih h (by omega))
      · exact ih h (by omega)

theorem write_keep {ts : List Status} {r n : Nat} {x : Bytes} (h : ⟨n, x, true⟩ ∈ ts) (hn : (n, x) ∉ (write ts r).2) :
    ⟨n, x, true⟩ ∈ (write ts r).1 := by
  induction ts generalizing r with
  | nil => cases h
  | cons t ts ih =>
    unfold write at hn ⊢
    rcases List.mem_cons.mp h with e | h
    · subst e
      split
      · next hc => rw [if_pos hc] at hn; simp at hn
      · exact List.mem_cons_self ..
    · split
      · next hc =>
        rw [if_pos hc] at hn
        exact List.mem_cons_of_mem _ (ih h (fun hm => hn (List.mem_cons_of_mem _ hm)))
      · next hc =>
        rw [if_neg hc] at hn
        exact List.mem_cons_of_mem _ (ih h hn)

theorem lost_keep {ts : List Status} {n m : Nat} {x : Bytes} (h : ⟨n, x, true⟩ ∈ ts) : ⟨n, x, true⟩ ∈ markLost ts m := by
  induction ts with
  | nil => cases h
  | cons t ts ih =>
    unfold markLost
    rcases List.mem_cons.mp h with e | h
    · subst e
      split <;> exact List.mem_cons_self ..
    · split
      · exact List.mem_cons_of_mem _ h
      · exact List.mem_cons_of_mem _ (ih h)

theorem lost_marks {ts : List Status} {n : Nat} {x : Bytes} {b : Bool} (h : ⟨n, x, b⟩ ∈ ts) (hnd : (ts.map (·.seqno)).Nodup) :
    ⟨n, x, true⟩ ∈ markLost ts n := by
  induction ts with
  | nil => cases h
  | cons t ts ih =>
    rw [List.map_cons, List.nodup_cons] at hnd
    unfold markLost
    rcases List.mem_cons.mp h with e | h
    · subst e
      rw [if_pos rfl]
      exact List.mem_cons_self ..
    · split
      · next he =>
        exact absurd (List.mem_map.mpr ⟨_, h, he.symm⟩) hnd.1
      · exact List.mem_cons_of_mem _ (ih h hnd.2)

/-- A token that is to be sent stays so until it is written or acknowledged. -/
theorem owed_stays (es : List SEv) (n : Nat) (x : Bytes) : ∀ (s : Sender) (out : List (Nat × Bytes)),
    ⟨n, x, true⟩ ∈ s.tokens → .acked n ∉ es → (∃ more, (srun es (s, out)).2 = out ++ more ∧
      ((n, x) ∉ more → ⟨n, x, true⟩ ∈ (srun es (s, out)).1.tokens)) := by
  induction es with
  | nil => intro s out h _; exact ⟨[], by simp [srun], fun _ => h⟩
  | cons e es ih =>
    intro s out h hna
    unfold srun
    by_cases hw : (n, x) ∈ (s.step e).2
    · have hpre : ∀ (es : List SEv) (y : Sender × List (Nat × Bytes)), ∃ more, (srun es y).2 = y.2 ++ more := by
        intro es
        induction es with
        | nil => intro y; exact ⟨[], by simp [srun]⟩
        | cons e es ih =>
          intro y
          obtain ⟨m, hm⟩ := ih ((y.1.step e).1, y.2 ++ (y.1.step e).2)
          exact ⟨(y.1.step e).2 ++ m, by rw [srun, hm, List.append_assoc]⟩
      obtain ⟨m, hm⟩ := hpre es ((s.step e).1, out ++ (s.step e).2)
      refine ⟨(s.step e).2 ++ m, by rw [hm, List.append_assoc], fun hn => ?_⟩
      exact absurd (List.mem_append_left _ hw) hn
    · have hk : ⟨n, x, true⟩ ∈ (s.step e).1.tokens := by
        cases e with
        | add t => exact List.mem_append_left _ h
        | write r => exact write_keep h hw
        | lost m => exact lost_keep h
        | acked m =>
          refine List.mem_filter.mpr ⟨h, ?_⟩
          have : n ≠ m := fun e => hna (by rw [e]; exact List.mem_cons_self ..)
          simpa using this
      obtain ⟨m, hm, hx⟩ := ih _ (out ++ (s.step e).2) hk (fun hm => hna (List.mem_cons_of_mem _ hm))
      refine ⟨(s.step e).2 ++ m, by rw [hm, List.append_assoc], fun hn => hx (fun hh => hn (List.mem_append_right _ hh))⟩

/-- A token that is not acknowledged stays with the sender. -/
theorem kept (es : List SEv) (n : Nat) (x : Bytes) : ∀ (s : Sender) (out : List (Nat × Bytes)),
    (∃ b, ⟨n, x, b⟩ ∈ s.tokens) → .acked n ∉ es → ∃ b, ⟨n, x, b⟩ ∈ (srun es (s, out)).1.tokens := by
  induction es with
  | nil => intro s out h _; exact h
  | cons e es ih =>
    intro s out h hna
    refine ih _ _ ?_ (fun hm => hna (List.mem_cons_of_mem _ hm))
    obtain ⟨b, hb⟩ := h
    have key : ∀ (l : List Status), l.map (fun t => (t.seqno, t.token)) = s.tokens.map (fun t => (t.seqno, t.token)) →
        ∃ b, ⟨n, x, b⟩ ∈ l := by
      intro l hl
      have : (n, x) ∈ s.tokens.map (fun t => (t.seqno, t.token)) := List.mem_map.mpr ⟨_, hb, rfl⟩
      rw [← hl, List.mem_map] at this
      obtain ⟨u, hu, e⟩ := this
      refine ⟨u.needsSending, ?_⟩
      cases u
      simp only [Prod.mk.injEq] at e
      simpa [e.1, e.2] using hu
    cases e with
    | add t => exact ⟨b, List.mem_append_left _ hb⟩
    | write r => exact key _ (write_map _ _)
    | lost m => exact key _ (lost_map _ _)
    | acked m =>
      refine ⟨b, List.mem_filter.mpr ⟨hb, ?_⟩⟩
      have : n ≠ m := fun e => hna (by rw [e]; exact List.mem_cons_self ..)
      simpa using this

/-- What was to be sent and is not acknowledged is still there. -/
theorem kept_from_add (es : List SEv) (n : Nat) (x : Bytes) (hx : (added es)[n]? = some x) (hna : .acked n ∉ es) :
    ∃ b, ⟨n, x, b⟩ ∈ (srun es (Sender.new, [])).1.tokens := by
  suffices H : ∀ (es : List SEv) (ts : List Bytes) (s : Sender) (out : List (Nat × Bytes)), SInv ts s →
      (ts ++ added es)[n]? = some x → .acked n ∉ es → (n < ts.length → ∃ b, ⟨n, x, b⟩ ∈ s.tokens) →
      ∃ b, ⟨n, x, b⟩ ∈ (srun es (s, out)).1.tokens from
    H es [] Sender.new [] new_inv hx hna (by simp)
  intro es
  induction es with
  | nil =>
    intro ts s out _ hx _ h
    rw [added, List.filterMap_nil, List.append_nil] at hx
    exact h (List.getElem?_eq_some_iff.mp hx).1
  | cons e es ih =>
    intro ts s out hi hx hna h
    rw [show e :: es = [e] ++ es from rfl, added_append, ← List.append_assoc] at hx
    refine ih _ _ _ (hi.step e) hx (fun hm => hna (List.mem_cons_of_mem _ hm)) ?_
    intro hlt
    by_cases hn : n < ts.length
    · exact kept [e] n x s out (h hn) (fun hm => hna (by rw [List.mem_singleton.mp hm]; exact List.mem_cons_self ..))
    · cases e with
      | add t =>
        simp only [added, List.filterMap_cons, List.filterMap_nil, List.length_append, List.length_singleton] at hlt
        have hnn : n = ts.length := by omega
        rw [List.getElem?_append_left (by simp [added]; omega)] at hx
        simp only [added, List.filterMap_cons, List.filterMap_nil] at hx
        rw [hnn, List.getElem?_append_right (Nat.le_refl _), Nat.sub_self] at hx
        simp only [List.getElem?_cons_zero, Option.some.injEq] at hx
        refine ⟨true, ?_⟩
        show _ ∈ s.tokens ++ [_]
        rw [hnn, hi.next, hx]
        exact List.mem_append_right _ (List.mem_singleton.mpr rfl)
      | write r => simp [added] at hlt; omega
      | lost m => simp [added] at hlt; omega
      | acked m => simp [added] at hlt; omega

theorem map_len_eq {l l' : List Status} (h : l.map (fun t => (t.seqno, t.token)) = l'.map fun t => (t.seqno, t.token)) :
    l.map Status.len = l'.map Status.len := by
  have := congrArg (List.map fun (p : Nat × Bytes) => 1 + (Codec.varintLen p.2.length).getD 0 + p.2.length) h
  rw [List.map_map, List.map_map] at this
  exact this

theorem filter_sum (l : List Status) (p : Status → Bool) : ((l.filter p).map Status.len).sum ≤ (l.map Status.len).sum := by
  induction l with
  | nil => simp
  | cons t l ih =>
    rw [List.filter_cons]
    split <;> simp only [List.map_cons, List.sum_cons] <;> omega

/-- What is kept needs not more room than all that was to be sent. -/
theorem room_inv (es : List SEv) : ∀ (ts : List Bytes) (s : Sender) (out : List (Nat × Bytes)),
    (∀ t ∈ ts ++ added es, t.length < 2 ^ 62) → (s.tokens.map Status.len).sum ≤ room ts →
    ((srun es (s, out)).1.tokens.map Status.len).sum ≤ room (ts ++ added es) := by
  induction es with
  | nil => intro ts s out _ h; simpa [srun, added] using h
  | cons e es ih =>
    intro ts s out hl h
    rw [show e :: es = [e] ++ es from rfl, added_append, ← List.append_assoc] at hl ⊢
    refine ih _ _ _ hl ?_
    cases e with
    | add t =>
      have ht : t.length < 2 ^ 62 := hl t (by simp [added])
      simp only [Sender.step, Sender.add, added, List.filterMap_cons, List.filterMap_nil, room, List.map_append, List.map_cons,
        List.map_nil, List.sum_append, List.sum_cons, List.sum_nil, frame_len t ht, Status.len]
      simp only [room] at h
      have h' : (List.map (fun (s : Status) => 1 + (Codec.varintLen s.token.length).getD 0 + s.token.length) s.tokens).sum
        = (s.tokens.map Status.len).sum := rfl
      omega
    | write r =>
      simp only [added, List.filterMap_cons, List.filterMap_nil, List.append_nil]
      show ((write s.tokens r).1.map Status.len).sum ≤ _
      rw [map_len_eq (write_map _ _)]
      exact h
    | lost m =>
      simp only [added, List.filterMap_cons, List.filterMap_nil, List.append_nil]
      show ((markLost s.tokens m).map Status.len).sum ≤ _
      rw [map_len_eq (lost_map _ _)]
      exact h
    | acked m =>
      simp only [added, List.filterMap_cons, List.filterMap_nil, List.append_nil]
      show ((s.tokens.filter _).map Status.len).sum ≤ _
      refine Nat.le_trans ?_ h
      exact filter_sum _ _

/-- Every token gets to the client: once it is to be sent, and each time that it is reported
lost, if it is not acknowledged it is written before or in the next packet that has room for
everything. -/
theorem C77_tokens_sent (a b : List SEv) (e : SEv) (n : Nat) (x : Bytes) (r : Nat)
    (hx : (added (a ++ [e]))[n]? = some x)
    (he : e = .add x ∧ n = (added a).length ∨ e = .lost n)
    (hna : .acked n ∉ a ++ e :: b)
    (hlen : ∀ t ∈ added (a ++ e :: b), t.length < 2 ^ 62)
    (hr : room (added (a ++ e :: b)) ≤ r) :
    ∃ out, (srun (a ++ e :: b ++ [.write r]) (Sender.new, [])).2 = (srun (a ++ [e]) (Sender.new, [])).2 ++ out ∧
      (n, x) ∈ out := by
  have hsplit : a ++ e :: b ++ [.write r] = (a ++ [e]) ++ (b ++ [.write r]) := by simp
  have hsplit2 : a ++ e :: b = (a ++ [e]) ++ b := by simp
  have hroom := room_inv (a ++ e :: b) [] Sender.new [] (by simpa using hlen) (by simp [Sender.new, room])
  rw [List.nil_append, hsplit2, srun_append] at hroom
  have hmem : ⟨n, x, true⟩ ∈ (srun (a ++ [e]) (Sender.new, [])).1.tokens := by
    have hia := srun_inv a [] Sender.new [] new_inv
    rw [srun_append]
    rcases he with ⟨rfl, hn⟩ | rfl
    · have := hia.next
      rw [List.nil_append] at this
      rw [← this] at hn
      show _ ∈ (srun a (Sender.new, [])).1.tokens ++ [_]
      rw [hn]
      exact List.mem_append_right _ (List.mem_singleton.mpr rfl)
    · have hx' : (added a)[n]? = some x := by
        rw [added_append] at hx
        simpa [added] using hx
      have hk : ∃ b, ⟨n, x, b⟩ ∈ (srun a (Sender.new, [])).1.tokens :=
        kept_from_add a n x hx' (fun h => hna (List.mem_append_left _ h))
      obtain ⟨b', hb'⟩ := hk
      exact lost_marks hb' hia.nodup
  rw [hsplit, srun_append, srun_append]
  cases hs : srun (a ++ [e]) (Sender.new, []) with
  | mk s o =>
    rw [hs] at hmem hroom
    have hnb : SEv.acked n ∉ b := fun h => hna (by simp [h])
    obtain ⟨more, hm, hk⟩ := owed_stays b n x s o hmem hnb
    cases hs2 : srun b (s, o) with
    | mk s2 o2 =>
      rw [hs2] at hm hk hroom
      dsimp only at hm hk hroom ⊢
      refine ⟨more ++ (s2.step (.write r)).2, ?_, ?_⟩
      · simp only [srun]
        rw [hm, List.append_assoc]
      · by_cases hin : (n, x) ∈ more
        · exact List.mem_append_left _ hin
        · refine List.mem_append_right _ (write_all (hk hin) ?_)
          rw [hsplit2] at hr
          exact Nat.le_trans hroom hr

example :
    (srun [.add [1, 2], .add [3], .write 3, .lost 1, .lost 0, .acked 1, .write 100] (Sender.new, [])).2
      = [(1, [3]), (0, [1, 2])] := by decide +kernel

end Neqo.Av
