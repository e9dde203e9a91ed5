import Verif.H3.Priority

namespace Neqo.H3
open Neqo.Codec
open Spec (wanted wantedAfter openedWith opens updateOf told Sendable AllArrive)

/-! ## Lists of operations -/

theorem wanted_snoc (ops : List CtlOp) (op : CtlOp) (id : Nat) :
    wanted (ops ++ [op]) id = wantedAfter id (wanted ops id) op := by
  simp [wanted, List.foldl_append]

theorem opens_append (a b : List CtlOp) : opens (a ++ b) = opens a ++ opens b := by
  induction a with
  | nil => rfl
  | cons op a ih => cases op <;> simp [opens, ih]

theorem openedWith_append {a : List CtlOp} {id : Nat} {p : Priority} (h : openedWith a id = some p)
    (b : List CtlOp) : openedWith (a ++ b) id = some p := by
  induction a with
  | nil => cases h
  | cons op a ih =>
    cases op <;> simp only [openedWith, List.cons_append] at h ⊢ <;> first
      | exact ih h
      | (split at h
         · rw [if_pos ‹_›]; exact h
         · rw [if_neg ‹_›]; exact ih h)

theorem openedWith_fresh {a : List CtlOp} {id : Nat} (h : id ∉ opens a) (b : List CtlOp) :
    openedWith (a ++ b) id = openedWith b id := by
  induction a with
  | nil => rfl
  | cons op a ih =>
    cases op <;> simp only [openedWith, opens, List.cons_append, List.mem_cons, not_or] at h ⊢ <;> first
      | exact ih h
      | (rw [if_neg (fun e => h.1 e.symm)]; exact ih h.2)

theorem openedWith_mem {a : List CtlOp} {id : Nat} {p : Priority} (h : openedWith a id = some p) :
    id ∈ opens a := by
  by_cases hm : id ∈ opens a
  · exact hm
  · have := openedWith_fresh hm []
    rw [List.append_nil, h] at this
    cases this

theorem told_snoc (p0 : Priority) (l : List Sent) (s : Sent) (id : Nat) :
    told p0 (l ++ [s]) id = (match updateOf s with
      | some (i, p) => if i = id then p else told p0 l id
      | none => told p0 l id) := by
  simp only [told, List.foldl_append, List.foldl_cons, List.foldl_nil]
  cases updateOf s <;> rfl

theorem told_none {p0 : Priority} {l : List Sent} {id : Nat}
    (h : ∀ s ∈ l, ∀ i p, updateOf s = some (i, p) → i ≠ id) : told p0 l id = p0 := by
  induction l generalizing p0 with
  | nil => rfl
  | cons s l ih =>
    simp only [told, List.foldl_cons]
    cases hu : updateOf s with
    | none => exact ih (fun x hx => h x (by simp [hx]))
    | some r =>
      obtain ⟨i, p⟩ := r
      simp only [if_neg (h s (by simp) i p hu)]
      exact ih (fun x hx => h x (by simp [hx]))

theorem encodeAll_snoc {disp : Priority → Bytes} {l : List Sent} {s : Sent} {a b : Bytes}
    (h : encodeAll disp l = some a) (hs : s.encode disp = some b) :
    encodeAll disp (l ++ [s]) = some (a ++ b) := by
  induction l generalizing a with
  | nil =>
    cases h
    simp [encodeAll, hs]
  | cons x l ih =>
    simp only [encodeAll, Option.bind_eq_bind, Option.bind_eq_some_iff, Option.pure_def,
      Option.some.injEq] at h
    obtain ⟨u, hu, v, hv, rfl⟩ := h
    simp [encodeAll, hu, ih hv]

/-! ## Frames of priorities -/

theorem frame_updateOf {h : PrioHandler} {id : Nat} {f : HFrame} (hf : h.frame id = some f) :
    updateOf (.frame f) = some (id, h.prio) ∧ h.prio ≠ h.last := by
  unfold PrioHandler.frame at hf
  split at hf
  · cases hf
  · rename_i hne
    split at hf <;> cases hf <;> exact ⟨rfl, hne⟩

theorem frame_none {h : PrioHandler} {id : Nat} (hf : h.frame id = none) : h.prio = h.last := by
  unfold PrioHandler.frame at hf
  split at hf
  · assumption
  · split at hf <;> cases hf

theorem frame_sendable {h : PrioHandler} {id : Nat} {f : HFrame} (hf : h.frame id = some f)
    (hid : id < 2 ^ 62) (hp : h.prio.urgency < 8) : Sendable (.frame f) := by
  unfold PrioHandler.frame at hf
  split at hf
  · cases hf
  · split at hf <;> cases hf <;> exact ⟨hid, hp⟩

theorem displayPriority_length (p : Priority) : (displayPriority p).length ≤ 5 := by
  unfold displayPriority
  split
  · split <;> simp
  · split <;> simp

/-! ## Sending -/

theorem flush_bytes (c : Control) (room : Nat) :
    (c.flush room).1.out ++ (c.flush room).1.buf = c.out ++ c.buf := by
  simp [Control.flush, List.append_assoc]

theorem sendAtomic_cases (c : Control) (room : Nat) (bs : Bytes) :
    (c.sendAtomic room bs).1.streams = c.streams ∧
    (c.sendAtomic room bs).1.written = c.written ∧
    (((c.sendAtomic room bs).2.2 = true ∧ (c.sendAtomic room bs).1.buf = [] ∧
      (c.sendAtomic room bs).1.out = c.out ++ c.buf ++ bs) ∨
     ((c.sendAtomic room bs).2.2 = false ∧
      (c.sendAtomic room bs).1.out ++ (c.sendAtomic room bs).1.buf = c.out ++ c.buf)) := by
  unfold Control.sendAtomic
  have hb := flush_bytes c room
  by_cases h1 : (c.flush room).1.buf = []
  · rw [if_pos h1]
    rw [h1, List.append_nil] at hb
    by_cases h2 : bs.length ≤ (c.flush room).2
    · rw [if_pos h2]
      exact ⟨rfl, rfl, .inl ⟨rfl, h1, by simp only; rw [hb]⟩⟩
    · rw [if_neg h2]
      exact ⟨rfl, rfl, .inr ⟨rfl, by simp only; rw [h1, List.append_nil, hb]⟩⟩
  · rw [if_neg h1]
    exact ⟨rfl, rfl, .inr ⟨rfl, hb⟩⟩

/-- What holds between calls.  `o` are the streams that are still to be looked at. -/
structure CtlInv (ops : List CtlOp) (o : List Nat) (c : Control) : Prop where
  bytes : ∃ bs, encodeAll displayPriority c.written = some bs ∧ c.out ++ c.buf = 0 :: bs
  sendable : ∀ s ∈ c.written, Sendable s
  named : ∀ s ∈ c.written, ∀ i p, updateOf s = some (i, p) → i ∈ opens ops
  closed : ∀ id, c.streams id = none → wanted ops id = none
  opened : ∀ id h, c.streams id = some h → wanted ops id = some h.prio ∧ id < 2 ^ 62 ∧
    h.prio.urgency < 8 ∧ (h.prio ≠ h.last → id ∈ o) ∧
    ∃ p0, openedWith ops id = some p0 ∧ h.last = told p0 c.written id

theorem updates_inv {ops : List CtlOp} : ∀ (rest : List Nat) (room : Nat) (c c' : Control),
    CtlInv ops rest c → Control.updates rest room c = some c' → CtlInv ops c'.outstanding c'
  | [], _, c, c', hi, h => by
    cases h
    exact ⟨hi.bytes, hi.sendable, hi.named, hi.closed, hi.opened⟩
  | id :: rest, room, c, c', hi, h => by
    unfold Control.updates at h
    cases hst : c.streams id with
    | none =>
      simp only [hst] at h
      refine updates_inv rest room c c' ⟨hi.bytes, hi.sendable, hi.named, hi.closed, ?_⟩ h
      intro i x hx
      obtain ⟨h1, h2, h3, h4, h5⟩ := hi.opened i x hx
      refine ⟨h1, h2, h3, fun hne => ?_, h5⟩
      rcases List.mem_cons.mp (h4 hne) with rfl | hm
      · rw [hst] at hx; cases hx
      · exact hm
    | some x =>
      simp only [hst] at h
      obtain ⟨w1, w2, w3, w4, p0, w5, w6⟩ := hi.opened id x hst
      cases hf : x.frame id with
      | none =>
        simp only [hf] at h
        refine updates_inv rest room c c' ⟨hi.bytes, hi.sendable, hi.named, hi.closed, ?_⟩ h
        intro i y hy
        obtain ⟨h1, h2, h3, h4, h5⟩ := hi.opened i y hy
        refine ⟨h1, h2, h3, fun hne => ?_, h5⟩
        rcases List.mem_cons.mp (h4 hne) with rfl | hm
        · rw [hst] at hy; cases hy
          exact absurd (frame_none hf) hne
        · exact hm
      | some f =>
        simp only [hf] at h
        obtain ⟨u1, u2⟩ := frame_updateOf hf
        cases he : Sent.encode displayPriority (.frame f) with
        | none => simp only [he] at h; cases h
        | some bs =>
          simp only [he] at h
          obtain ⟨s1, s2, s3⟩ := sendAtomic_cases c room bs
          obtain ⟨b, hb1, hb2⟩ := hi.bytes
          rcases s3 with ⟨ok, s4, s5⟩ | ⟨ok, s4⟩
          · rw [if_pos ok] at h
            refine updates_inv rest _ _ c' ⟨?_, ?_, ?_, ?_, ?_⟩ h
            · refine ⟨b ++ bs, encodeAll_snoc hb1 he, ?_⟩
              simp only [Control.setStream]
              rw [s4, s5, hb2]
              simp
            · intro s hs
              rcases List.mem_append.mp hs with hs | hs
              · exact hi.sendable s hs
              · cases List.mem_singleton.mp hs
                exact frame_sendable hf w2 w3
            · intro s hs i p hu
              rcases List.mem_append.mp hs with hs | hs
              · exact hi.named s hs i p hu
              · cases List.mem_singleton.mp hs
                rw [u1] at hu; cases hu
                exact openedWith_mem w5
            · intro i hn
              simp only [Control.setStream, s1] at hn
              split at hn
              · cases hn
              · exact hi.closed i hn
            · intro i y hy
              simp only [Control.setStream, s1] at hy
              by_cases hid : i = id
              · subst hid
                rw [if_pos rfl] at hy
                cases hy
                refine ⟨w1, w2, w3, fun hne => absurd rfl hne, p0, w5, ?_⟩
                simp only [PrioHandler.sent, told_snoc, u1, if_pos]
              · rw [if_neg hid] at hy
                obtain ⟨h1, h2, h3, h4, q0, h5, h6⟩ := hi.opened i y hy
                refine ⟨h1, h2, h3, fun hne => ?_, q0, h5, ?_⟩
                · rcases List.mem_cons.mp (h4 hne) with e | hm
                  · exact absurd e hid
                  · exact hm
                · simp only [told_snoc, u1]
                  rw [if_neg (fun e => hid e.symm)]
                  exact h6
          · rw [if_neg (by rw [ok]; exact Bool.false_ne_true)] at h
            cases h
            refine ⟨⟨b, ?_, ?_⟩, ?_, ?_, ?_, ?_⟩
            · simp only [s2]; exact hb1
            · simp only; rw [s4, hb2]
            · simp only [s2]; exact hi.sendable
            · simp only [s2]; exact hi.named
            · simp only [s1]; exact hi.closed
            · simp only [s1, s2]; exact hi.opened

theorem ctlInv_create : CtlInv [] [] Control.create :=
  ⟨⟨[], rfl, rfl⟩, by simp [Control.create], by simp [Control.create], fun _ _ => rfl,
    fun _ _ h => by cases h⟩

/-- Opening a stream that was not open before. -/
theorem ctlInv_open {ops : List CtlOp} {c : Control} (hi : CtlInv ops c.outstanding c) {op : CtlOp}
    {id : Nat} {push : Bool} {p : Priority} (hfresh : id ∉ opens ops) (hid : id < 2 ^ 62)
    (hp : p.urgency < 8) (hop : openedWith [op] id = some p)
    (hw : ∀ i w, wantedAfter i w op = if id = i then some p else w) :
    CtlInv (ops ++ [op]) c.outstanding (c.setStream id (some (PrioHandler.new push p))) := by
  refine ⟨hi.bytes, hi.sendable, ?_, ?_, ?_⟩
  · intro s hs i q hu
    rw [opens_append]
    exact List.mem_append_left _ (hi.named s hs i q hu)
  · intro i hn
    simp only [Control.setStream] at hn
    split at hn
    · cases hn
    · rename_i hne
      rw [wanted_snoc, hw, if_neg (fun e => hne e.symm)]
      exact hi.closed i hn
  · intro i x hx
    simp only [Control.setStream] at hx
    by_cases hii : i = id
    · subst hii
      rw [if_pos rfl] at hx
      cases hx
      refine ⟨by rw [wanted_snoc, hw, if_pos rfl]; rfl, hid, hp, fun hne => absurd rfl hne, p, ?_, ?_⟩
      · rw [openedWith_fresh hfresh]; exact hop
      · refine (told_none ?_).symm
        intro s hs j q hu e
        subst e
        exact hfresh (hi.named s hs j q hu)
    · rw [if_neg hii] at hx
      obtain ⟨h1, h2, h3, h4, q0, h5, h6⟩ := hi.opened i x hx
      refine ⟨?_, h2, h3, h4, q0, openedWith_append h5 _, h6⟩
      rw [wanted_snoc, hw, if_neg (fun e => hii e.symm)]
      exact h1

theorem ctlInv_same {ops : List CtlOp} {o : List Nat} {c : Control} (hi : CtlInv ops o c) {op : CtlOp}
    (hw : ∀ i w, wantedAfter i w op = w) : CtlInv (ops ++ [op]) o c := by
  refine ⟨hi.bytes, hi.sendable, ?_, ?_, ?_⟩
  · intro s hs i q hu
    rw [opens_append]
    exact List.mem_append_left _ (hi.named s hs i q hu)
  · intro i hn
    rw [wanted_snoc, hw]
    exact hi.closed i hn
  · intro i x hx
    obtain ⟨h1, h2, h3, h4, q0, h5, h6⟩ := hi.opened i x hx
    exact ⟨by rw [wanted_snoc, hw]; exact h1, h2, h3, h4, q0, openedWith_append h5 _, h6⟩

theorem flush_inv {ops : List CtlOp} {o : List Nat} {c : Control} (hi : CtlInv ops o c) (room : Nat) :
    CtlInv ops o (c.flush room).1 := by
  obtain ⟨b, hb1, hb2⟩ := hi.bytes
  exact ⟨⟨b, hb1, by rw [flush_bytes, hb2]⟩, hi.sendable, hi.named, hi.closed, hi.opened⟩

theorem ctlInv_step {ops : List CtlOp} {c c' : Control} {op : CtlOp} (hi : CtlInv ops c.outstanding c)
    (hok : Spec.CtlOp.Ok op) (hfresh : ∀ i ∈ opens [op], i ∉ opens ops) (h : c.step op = some c') :
    CtlInv (ops ++ [op]) c'.outstanding c' := by
  cases op with
  | fetch id p =>
    cases h
    exact ctlInv_open hi (hfresh id (by simp [opens])) hok.1 hok.2 (by simp [openedWith]) (fun _ _ => rfl)
  | pushStream id pushId =>
    cases h
    exact ctlInv_open hi (hfresh id (by simp [opens])) hok (by decide) (by simp [openedWith, Priority.default])
      (fun _ _ => rfl)
  | removed id =>
    cases h
    refine ⟨hi.bytes, hi.sendable, ?_, ?_, ?_⟩
    · intro s hs i q hu
      rw [opens_append]
      exact List.mem_append_left _ (hi.named s hs i q hu)
    · intro i hn
      rw [wanted_snoc]
      simp only [Control.setStream] at hn
      simp only [wantedAfter]
      split at hn
      · rename_i e; rw [if_pos e.symm]
      · rename_i e; rw [if_neg (fun h => e h.symm)]; exact hi.closed i hn
    · intro i x hx
      simp only [Control.setStream] at hx
      split at hx
      · cases hx
      · rename_i e
        obtain ⟨h1, h2, h3, h4, q0, h5, h6⟩ := hi.opened i x hx
        refine ⟨?_, h2, h3, h4, q0, openedWith_append h5 _, h6⟩
        rw [wanted_snoc]
        simp only [wantedAfter]
        rw [if_neg (fun h => e h.symm)]
        exact h1
  | setPriority id p =>
    simp only [Control.step, Option.some.injEq] at h
    subst h
    unfold Control.setPriority
    cases hst : c.streams id with
    | none =>
      simp only
      refine ⟨hi.bytes, hi.sendable, ?_, ?_, ?_⟩
      · intro s hs i q hu
        rw [opens_append]
        exact List.mem_append_left _ (hi.named s hs i q hu)
      · intro i hn
        rw [wanted_snoc]
        simp only [wantedAfter, hi.closed i hn]
        split <;> rfl
      · intro i x hx
        obtain ⟨h1, h2, h3, h4, q0, h5, h6⟩ := hi.opened i x hx
        refine ⟨?_, h2, h3, h4, q0, openedWith_append h5 _, h6⟩
        rw [wanted_snoc]
        simp only [wantedAfter]
        rw [if_neg (fun e => by subst e; rw [hst] at hx; cases hx)]
        exact h1
    | some x =>
      simp only
      obtain ⟨w1, w2, w3, w4, p0, w5, w6⟩ := hi.opened id x hst
      by_cases hp : p = x.prio
      · have hu : (x.update p) = (x, false) := by simp [PrioHandler.update, hp]
        simp only [hu, Bool.false_eq_true, if_false]
        refine ⟨hi.bytes, hi.sendable, ?_, ?_, ?_⟩
        · intro s hs i q hu
          rw [opens_append]
          exact List.mem_append_left _ (hi.named s hs i q hu)
        · intro i hn
          rw [wanted_snoc]
          simp only [wantedAfter, hi.closed i hn]
          split <;> rfl
        · intro i y hy
          obtain ⟨h1, h2, h3, h4, q0, h5, h6⟩ := hi.opened i y hy
          refine ⟨?_, h2, h3, h4, q0, openedWith_append h5 _, h6⟩
          rw [wanted_snoc]
          simp only [wantedAfter]
          split
          · rename_i e
            subst e
            rw [hst] at hy; cases hy
            rw [h1, hp]; rfl
          · exact h1
      · have hu : (x.update p) = ({ x with prio := p }, true) := by simp [PrioHandler.update, hp]
        simp only [hu, if_true]
        refine ⟨hi.bytes, hi.sendable, ?_, ?_, ?_⟩
        · intro s hs i q hu
          rw [opens_append]
          exact List.mem_append_left _ (hi.named s hs i q hu)
        · intro i hn
          simp only [Control.setStream] at hn
          split at hn
          · cases hn
          · rename_i e
            rw [wanted_snoc]
            simp only [wantedAfter]
            rw [if_neg (fun h => e h.symm)]
            exact hi.closed i hn
        · intro i y hy
          simp only [Control.setStream] at hy
          by_cases hii : i = id
          · subst hii
            rw [if_pos rfl] at hy
            cases hy
            refine ⟨?_, w2, hok, fun _ => by simp, p0, openedWith_append w5 _, w6⟩
            rw [wanted_snoc]
            simp only [wantedAfter, if_true, w1, Option.map_some]
          · rw [if_neg hii] at hy
            obtain ⟨h1, h2, h3, h4, q0, h5, h6⟩ := hi.opened i y hy
            refine ⟨?_, h2, h3, fun hne => List.mem_append_left _ (h4 hne), q0, openedWith_append h5 _, h6⟩
            rw [wanted_snoc]
            simp only [wantedAfter]
            rw [if_neg (fun e => hii e.symm)]
            exact h1
  | queue s =>
    simp only [Control.step, Control.queueFrame, Option.bind_eq_bind, Option.bind_eq_some_iff,
      Option.pure_def, Option.some.injEq] at h
    obtain ⟨bs, he, rfl⟩ := h
    have hi' := ctlInv_same hi (op := .queue s) (fun _ _ => rfl)
    obtain ⟨b, hb1, hb2⟩ := hi.bytes
    refine ⟨⟨b ++ bs, encodeAll_snoc hb1 he, ?_⟩, ?_, ?_, hi'.closed, ?_⟩
    · simp only
      rw [← List.append_assoc, hb2]; rfl
    · intro x hx
      rcases List.mem_append.mp hx with hx | hx
      · exact hi.sendable x hx
      · cases List.mem_singleton.mp hx; exact hok.1
    · intro x hx i q hu
      rcases List.mem_append.mp hx with hx | hx
      · exact hi'.named x hx i q hu
      · cases List.mem_singleton.mp hx
        rw [hok.2] at hu; cases hu
    · intro i x hx
      obtain ⟨h1, h2, h3, h4, q0, h5, h6⟩ := hi'.opened i x hx
      refine ⟨h1, h2, h3, h4, q0, h5, ?_⟩
      simp only [told_snoc, hok.2]
      exact h6
  | send room =>
    have hi' := flush_inv (ctlInv_same hi (op := .send room) (fun _ _ => rfl)) room
    exact updates_inv _ _ _ _ hi' h

theorem ctlInv_run : ∀ (ops pre : List CtlOp) (c c' : Control), CtlInv pre c.outstanding c →
    (∀ op ∈ ops, Spec.CtlOp.Ok op) → (opens (pre ++ ops)).Nodup → c.run ops = some c' →
    CtlInv (pre ++ ops) c'.outstanding c'
  | [], pre, c, c', hi, _, _, h => by
    cases h
    rw [List.append_nil]
    exact hi
  | op :: ops, pre, c, c', hi, hok, hn, h => by
    unfold Control.run at h
    cases hs : c.step op with
    | none => simp only [hs] at h; cases h
    | some c1 =>
      simp only [hs] at h
      have hn' := hn
      rw [show pre ++ op :: ops = pre ++ ([op] ++ ops) from rfl, opens_append, opens_append] at hn'
      have hd := (List.nodup_append.mp hn').2.2
      have h1 := ctlInv_step hi (hok op (by simp)) (fun i hi1 hi2 =>
        hd i hi2 i (List.mem_append_left _ hi1) rfl) hs
      have := ctlInv_run ops (pre ++ [op]) c1 c' h1 (fun o ho => hok o (by simp [ho]))
        (by rw [List.append_assoc]; exact hn) h
      rw [List.append_assoc] at this
      exact this

theorem ctl_run_inv {ops : List CtlOp} {c : Control} (hok : ∀ op ∈ ops, Spec.CtlOp.Ok op)
    (hn : (opens ops).Nodup) (h : Control.create.run ops = some c) : CtlInv ops c.outstanding c := by
  have := ctlInv_run ops [] Control.create c ctlInv_create hok hn h
  rwa [List.nil_append] at this

/-! ## What is sent in one go -/

theorem updates_new : ∀ (rest : List Nat) (room : Nat) (c c' : Control),
    Control.updates rest room c = some c' → ∃ new, c'.written = c.written ++ new ∧
      (∀ s ∈ new, ∃ id h f, c.streams id = some h ∧ h.frame id = some f ∧ s = .frame f) ∧
      ((new.filterMap updateOf).map Prod.fst).Nodup
  | [], _, c, c', h => by
    cases h
    exact ⟨[], by simp, by simp, by simp⟩
  | id :: rest, room, c, c', h => by
    unfold Control.updates at h
    cases hst : c.streams id with
    | none =>
      simp only [hst] at h
      exact updates_new rest room c c' h
    | some x =>
      simp only [hst] at h
      cases hf : x.frame id with
      | none =>
        simp only [hf] at h
        exact updates_new rest room c c' h
      | some f =>
        simp only [hf] at h
        obtain ⟨u1, u2⟩ := frame_updateOf hf
        cases he : Sent.encode displayPriority (.frame f) with
        | none => simp only [he] at h; cases h
        | some bs =>
          simp only [he] at h
          obtain ⟨s1, s2, s3⟩ := sendAtomic_cases c room bs
          rcases s3 with ⟨ok, _⟩ | ⟨ok, _⟩
          · rw [if_pos ok] at h
            obtain ⟨new, n1, n2, n3⟩ := updates_new rest _ _ c' h
            simp only [Control.setStream, s1] at n2
            have n2' : ∀ s ∈ new, ∃ id' h' f', id' ≠ id ∧ c.streams id' = some h' ∧
                h'.frame id' = some f' ∧ s = .frame f' := by
              intro s hs
              obtain ⟨i, y, g, hy, hg, hsg⟩ := n2 s hs
              by_cases hii : i = id
              · subst hii
                rw [if_pos rfl] at hy
                cases hy
                exact absurd rfl (frame_updateOf hg).2
              · rw [if_neg hii] at hy
                exact ⟨i, y, g, hii, hy, hg, hsg⟩
            refine ⟨.frame f :: new, by rw [n1]; simp, ?_, ?_⟩
            · intro s hs
              rcases List.mem_cons.mp hs with rfl | hs
              · exact ⟨id, x, f, hst, hf, rfl⟩
              · obtain ⟨i, y, g, _, h1, h2, h3⟩ := n2' s hs
                exact ⟨i, y, g, h1, h2, h3⟩
            · rw [List.filterMap_cons_some u1, List.map_cons, List.nodup_cons]
              refine ⟨?_, n3⟩
              intro hm
              obtain ⟨r, hr, hr2⟩ := List.mem_map.mp hm
              obtain ⟨s, hs, hu⟩ := List.mem_filterMap.mp hr
              obtain ⟨i, y, g, hne, _, hg, rfl⟩ := n2' s hs
              rw [(frame_updateOf hg).1] at hu
              cases hu
              exact hne hr2
          · rw [if_neg (by rw [ok]; exact Bool.false_ne_true)] at h
            cases h
            exact ⟨[], by simp [s2], by simp, by simp⟩

theorem prints_exists : ∃ prio, Prints prio displayPriority := by
  refine ⟨fun bs => match (List.range 8).flatMap (fun u => [Priority.mk u false, ⟨u, true⟩])
      |>.find? (fun p => displayPriority p = bs) with
    | some p => .ok p
    | none => .error .httpFrame, fun p hp => ?_⟩
  obtain ⟨u, i⟩ := p
  simp only at hp
  revert i
  have : ∀ u < 8, ∀ i, (match ((List.range 8).flatMap (fun u => [Priority.mk u false, ⟨u, true⟩])).find?
      (fun p => displayPriority p = displayPriority ⟨u, i⟩) with
    | some p => Except.ok p
    | none => Except.error Err.httpFrame) = Except.ok ⟨u, i⟩ ∧ (displayPriority ⟨u, i⟩).length ≤ 5 := by
    decide +kernel
  exact fun i => this u hp i

theorem sendable_encodes {s : Sent} (h : Sendable s) : ∃ bs, s.encode displayPriority = some bs := by
  obtain ⟨prio, hp⟩ := prints_exists
  obtain ⟨e, _, he, _⟩ := sent_arrives hp s h
  exact ⟨e, he⟩

theorem vvec_length {d e : Bytes} (h : encodeVvec d = some e) : e.length ≤ 8 + d.length := by
  unfold encodeVvec at h
  simp only [Option.map_eq_some_iff] at h
  obtain ⟨l, hl, rfl⟩ := h
  have := varint_length hl
  simp
  omega

theorem frame_length {h : PrioHandler} {id : Nat} {f : HFrame} (hf : h.frame id = some f) {bs : Bytes}
    (he : Sent.encode displayPriority (.frame f) = some bs) : bs.length ≤ 29 := by
  unfold PrioHandler.frame at hf
  have key : ∀ (t : Nat) (a b : Bytes), encodeVarint t = some a →
      ((encodeVarint id).bind fun i => encodeVvec (i ++ displayPriority h.prio)) = some b →
      (a ++ b).length ≤ 29 := by
    intro t a b ha hb
    simp only [Option.bind_eq_some_iff] at hb
    obtain ⟨i, hi, hv⟩ := hb
    have h1 := varint_length ha
    have h2 := varint_length hi
    have h3 := vvec_length hv
    have h4 := displayPriority_length h.prio
    simp only [List.length_append] at h3 ⊢
    omega
  split at hf
  · cases hf
  · split at hf <;> cases hf <;>
    · simp only [Sent.encode, hEncodeBody, Option.bind_eq_bind, Option.pure_def] at he
      obtain ⟨a, ha, he⟩ := Option.bind_eq_some_iff.mp he
      obtain ⟨b, hb, he⟩ := Option.bind_eq_some_iff.mp he
      cases he
      exact key _ a b ha hb

/-- The loop ends without panic, and with enough room nothing is left. -/
theorem updates_ends {ops : List CtlOp} : ∀ (rest : List Nat) (room : Nat) (c : Control),
    CtlInv ops rest c → ∃ c', Control.updates rest room c = some c' ∧
      (c.buf = [] → 29 * rest.length ≤ room → c'.outstanding = [] ∧ c'.buf = [])
  | [], _, c, _ => ⟨_, rfl, fun h _ => ⟨rfl, h⟩⟩
  | id :: rest, room, c, hi => by
    unfold Control.updates
    cases hst : c.streams id with
    | none =>
      simp only
      obtain ⟨c', h1, h2⟩ := updates_ends rest room c ⟨hi.bytes, hi.sendable, hi.named, hi.closed, by
        intro i x hx
        obtain ⟨h1, h2, h3, h4, h5⟩ := hi.opened i x hx
        refine ⟨h1, h2, h3, fun hne => ?_, h5⟩
        rcases List.mem_cons.mp (h4 hne) with rfl | hm
        · rw [hst] at hx; cases hx
        · exact hm⟩
      refine ⟨c', h1, fun hb hr => h2 hb ?_⟩
      simp only [List.length_cons] at hr
      omega
    | some x =>
      simp only
      obtain ⟨w1, w2, w3, w4, p0, w5, w6⟩ := hi.opened id x hst
      cases hf : x.frame id with
      | none =>
        simp only
        obtain ⟨c', h1, h2⟩ := updates_ends rest room c ⟨hi.bytes, hi.sendable, hi.named, hi.closed, by
          intro i y hy
          obtain ⟨h1, h2, h3, h4, h5⟩ := hi.opened i y hy
          refine ⟨h1, h2, h3, fun hne => ?_, h5⟩
          rcases List.mem_cons.mp (h4 hne) with rfl | hm
          · rw [hst] at hy; cases hy
            exact absurd (frame_none hf) hne
          · exact hm⟩
        refine ⟨c', h1, fun hb hr => h2 hb ?_⟩
        simp only [List.length_cons] at hr
        omega
      | some f =>
        simp only
        obtain ⟨u1, u2⟩ := frame_updateOf hf
        obtain ⟨bs, he⟩ := sendable_encodes (frame_sendable hf w2 w3)
        have hlen := frame_length hf he
        simp only [he]
        obtain ⟨s1, s2, s3⟩ := sendAtomic_cases c room bs
        obtain ⟨b, hb1, hb2⟩ := hi.bytes
        by_cases ok : (c.sendAtomic room bs).2.2 = true
        · rw [if_pos ok]
          rcases s3 with ⟨_, s4, s5⟩ | ⟨ok', _⟩
          · obtain ⟨c', h1, h2⟩ := updates_ends rest (c.sendAtomic room bs).2.1
              { (c.sendAtomic room bs).1.setStream id (some x.sent) with
                written := c.written ++ [.frame f] } ⟨⟨b ++ bs, encodeAll_snoc hb1 he, by
                  simp only [Control.setStream]
                  rw [s4, s5, hb2]
                  simp⟩, (by
              intro s hs
              rcases List.mem_append.mp hs with hs | hs
              · exact hi.sendable s hs
              · cases List.mem_singleton.mp hs
                exact frame_sendable hf w2 w3), (by
              intro s hs i p hu
              rcases List.mem_append.mp hs with hs | hs
              · exact hi.named s hs i p hu
              · cases List.mem_singleton.mp hs
                rw [u1] at hu; cases hu
                exact openedWith_mem w5), (by
              intro i hn
              simp only [Control.setStream, s1] at hn
              split at hn
              · cases hn
              · exact hi.closed i hn), (by
              intro i y hy
              simp only [Control.setStream, s1] at hy
              by_cases hid : i = id
              · subst hid
                rw [if_pos rfl] at hy
                cases hy
                refine ⟨w1, w2, w3, fun hne => absurd rfl hne, p0, w5, ?_⟩
                simp only [PrioHandler.sent, told_snoc, u1, if_pos]
              · rw [if_neg hid] at hy
                obtain ⟨h1, h2, h3, h4, q0, h5, h6⟩ := hi.opened i y hy
                refine ⟨h1, h2, h3, fun hne => ?_, q0, h5, ?_⟩
                · rcases List.mem_cons.mp (h4 hne) with e | hm
                  · exact absurd e hid
                  · exact hm
                · simp only [told_snoc, u1]
                  rw [if_neg (fun e => hid e.symm)]
                  exact h6)⟩
            refine ⟨c', h1, fun hb hr => h2 s4 ?_⟩
            have hroom : (c.sendAtomic room bs).2.1 = room - bs.length := by
              unfold Control.sendAtomic Control.flush at ok ⊢
              simp only [hb, List.drop_nil, List.length_nil, Nat.sub_zero, if_true] at ok ⊢
              split at ok
              · rw [if_pos ‹_›]
              · cases ok
            rw [hroom]
            simp only [List.length_cons] at hr
            omega
          · rw [ok] at ok'; cases ok'
        · rw [if_neg ok]
          refine ⟨_, rfl, fun hb hr => absurd ?_ ok⟩
          unfold Control.sendAtomic Control.flush
          simp only [hb, List.drop_nil, List.length_nil, Nat.sub_zero, if_true]
          simp only [List.length_cons] at hr
          rw [if_pos (show bs.length ≤ room by omega)]

theorem updates_streams : ∀ (rest : List Nat) (room : Nat) (c c' : Control),
    Control.updates rest room c = some c' → ∀ i h', c'.streams i = some h' →
      ∃ h, c.streams i = some h ∧ h'.prio = h.prio ∧ (h'.last = h.last ∨ h'.last = h.prio)
  | [], _, c, c', h => by
    cases h
    exact fun i h' hh => ⟨h', hh, rfl, .inl rfl⟩
  | id :: rest, room, c, c', h => by
    unfold Control.updates at h
    cases hst : c.streams id with
    | none =>
      simp only [hst] at h
      exact updates_streams rest room c c' h
    | some x =>
      simp only [hst] at h
      cases hf : x.frame id with
      | none =>
        simp only [hf] at h
        exact updates_streams rest room c c' h
      | some f =>
        simp only [hf] at h
        cases he : Sent.encode displayPriority (.frame f) with
        | none => simp only [he] at h; cases h
        | some bs =>
          simp only [he] at h
          obtain ⟨s1, s2, s3⟩ := sendAtomic_cases c room bs
          split at h
          · intro i h' hh
            obtain ⟨y, hy, y1, y2⟩ := updates_streams rest _ _ c' h i h' hh
            simp only [Control.setStream, s1] at hy
            by_cases hid : i = id
            · subst hid
              rw [if_pos rfl] at hy
              cases hy
              refine ⟨x, hst, y1, .inr ?_⟩
              rcases y2 with y2 | y2 <;> exact y2
            · rw [if_neg hid] at hy
              exact ⟨y, hy, y1, y2⟩
          · cases h
            intro i h' hh
            simp only [s1] at hh
            exact ⟨h', hh, rfl, .inl rfl⟩

/-! ## The properties -/

/-- C109: whatever the application asks for and however little the transport takes at a
time, nothing fails. -/
theorem C109_no_panic (ops : List CtlOp) (hok : ∀ op ∈ ops, Spec.CtlOp.Ok op)
    (hn : (opens ops).Nodup) : ∃ c, Control.create.run ops = some c := by
  suffices H : ∀ (ops pre : List CtlOp) (c : Control), CtlInv pre c.outstanding c →
      (∀ op ∈ ops, Spec.CtlOp.Ok op) → (opens (pre ++ ops)).Nodup → ∃ c', c.run ops = some c' from
    H ops [] Control.create ctlInv_create hok hn
  intro ops
  induction ops with
  | nil => exact fun _ c _ _ _ => ⟨c, rfl⟩
  | cons op ops ih =>
    intro pre c hi hok hn
    have hstep : ∃ c1, c.step op = some c1 := by
      cases op with
      | queue s =>
        obtain ⟨bs, he⟩ := sendable_encodes (hok _ List.mem_cons_self).1
        exact ⟨{ c with buf := c.buf ++ bs, written := c.written ++ [s] }, by
          simp [Control.step, Control.queueFrame, he]⟩
      | send room =>
        obtain ⟨c', h, _⟩ := updates_ends _ (c.flush room).2 _ (flush_inv hi room)
        exact ⟨c', h⟩
      | _ => exact ⟨_, rfl⟩
    obtain ⟨c1, hs⟩ := hstep
    have hn' := hn
    rw [show pre ++ op :: ops = pre ++ ([op] ++ ops) from rfl, opens_append, opens_append] at hn'
    have hd := (List.nodup_append.mp hn').2.2
    have h1 := ctlInv_step hi (hok op (by simp)) (fun i hi1 hi2 =>
      hd i hi2 i (List.mem_append_left _ hi1) rfl) hs
    obtain ⟨c', h'⟩ := ih (pre ++ [op]) c1 h1 (fun o ho => hok o (by simp [ho]))
      (by rw [List.append_assoc]; exact hn)
    exact ⟨c', by unfold Control.run; simp only [hs]; exact h'⟩

/-- C109: the control stream is the type of the stream and then whole frames; the server
reads exactly the frames that were written, in that order, however the bytes arrive. -/
theorem C109_server_reads_frames (prio : Bytes → Except Err Priority) (hpd : Prints prio displayPriority)
    {ops : List CtlOp} (hok : ∀ op ∈ ops, Spec.CtlOp.Ok op) (hn : (opens ops).Nodup) {c : Control}
    (h : Control.create.run ops = some c) :
    ∃ groups, AllArrive c.written groups ∧
      ∀ (pieces : List Bytes) (fin : Bool), pieces ≠ [] → 0 :: pieces.flatten = c.out ++ c.buf →
        Pump.feed (hDecoder prio) hPayload ⟨Reader.new, 0⟩ pieces fin =
          (groups.flatten, if fin then .finished else .more) := by
  have hi := ctl_run_inv hok hn h
  obtain ⟨bs, h1, h2⟩ := hi.bytes
  obtain ⟨bs', groups, h3, h4, h5⟩ := C68_frames prio displayPriority hpd c.written hi.sendable
  rw [h1] at h3
  cases h3
  refine ⟨groups, h4, fun pieces fin hne hp => h5 pieces fin hne ?_⟩
  rw [h2] at hp
  exact (List.cons.inj hp).2

/-- C109: the answer to the application: an error exactly for a stream that is not open,
and otherwise whether the priority is a new one. -/
theorem C109_answer {ops : List CtlOp} (hok : ∀ op ∈ ops, Spec.CtlOp.Ok op) (hn : (opens ops).Nodup)
    {c : Control} (h : Control.create.run ops = some c) (id : Nat) (p : Priority) :
    (c.setPriority id p).map Prod.snd = (wanted ops id).map (fun q => decide (p ≠ q)) := by
  have hi := ctl_run_inv hok hn h
  unfold Control.setPriority
  cases hst : c.streams id with
  | none => rw [hi.closed id hst]; rfl
  | some x =>
    rw [(hi.opened id x hst).1]
    by_cases hp : p = x.prio
    · simp [PrioHandler.update, hp]
    · simp [PrioHandler.update, hp]

/-- C109: when the control stream is served, the frames that go out carry the priorities
wanted at that time, one for each stream at most, and only for streams for which the server
was last told something else. -/
theorem C109_updates_are_current {ops : List CtlOp} (hok : ∀ op ∈ ops, Spec.CtlOp.Ok op)
    (hn : (opens ops).Nodup) {c c' : Control} (h : Control.create.run ops = some c) (room : Nat)
    (hs : c.send room = some c') :
    ∃ new, c'.written = c.written ++ new ∧
      (∀ s ∈ new, ∃ id p p0, updateOf s = some (id, p) ∧ wanted ops id = some p ∧
        openedWith ops id = some p0 ∧ told p0 c.written id ≠ p) ∧
      ((new.filterMap updateOf).map Prod.fst).Nodup := by
  have hi := ctl_run_inv hok hn h
  obtain ⟨new, n1, n2, n3⟩ := updates_new _ _ _ _ hs
  refine ⟨new, n1, fun s hsn => ?_, n3⟩
  obtain ⟨id, x, f, hx, hf, rfl⟩ := n2 s hsn
  obtain ⟨w1, _, _, _, p0, w5, w6⟩ := hi.opened id x hx
  obtain ⟨u1, u2⟩ := frame_updateOf hf
  exact ⟨id, x.prio, p0, u1, w1, w5, fun e => u2 (by rw [w6, e])⟩

/-- C109: a stream with nothing outstanding: what the server was last told is what the
application wants. -/
theorem C109_nothing_forgotten {ops : List CtlOp} (hok : ∀ op ∈ ops, Spec.CtlOp.Ok op)
    (hn : (opens ops).Nodup) {c : Control} (h : Control.create.run ops = some c) {id : Nat}
    {p p0 : Priority} (hw : wanted ops id = some p) (h0 : openedWith ops id = some p0)
    (ho : id ∉ c.outstanding) : told p0 c.written id = p := by
  have hi := ctl_run_inv hok hn h
  cases hst : c.streams id with
  | none => rw [hi.closed id hst] at hw; cases hw
  | some x =>
    obtain ⟨w1, _, _, w4, q0, w5, w6⟩ := hi.opened id x hst
    rw [w1] at hw; cases hw
    rw [h0] at w5; cases w5
    rw [← w6]
    by_cases e : x.prio = x.last
    · exact e.symm
    · exact absurd (w4 e) ho

/-- C109: once the transport takes what is in the buffer and 29 bytes for each change, the
server has been told the wanted priority of every stream that was opened with the default
priority.  Missing: streams opened with another one, of which the server is not told
(`C109_first_priority_not_told`), and that the update of a push names the push
(`C109_push_update_names_stream`). -/
theorem C109_server_is_told_partial {ops : List CtlOp} (hok : ∀ op ∈ ops, Spec.CtlOp.Ok op)
    (hn : (opens ops).Nodup) {c : Control} (h : Control.create.run ops = some c) {room : Nat}
    (hr : c.buf.length + 29 * c.outstanding.length ≤ room) :
    ∃ c', c.send room = some c' ∧ c'.buf = [] ∧ c'.outstanding = [] ∧ ∀ id p, wanted ops id = some p →
      openedWith ops id = some ⟨3, false⟩ → told ⟨3, false⟩ c'.written id = p := by
  have hi := ctl_run_inv hok hn h
  have hi' := flush_inv (ctlInv_same hi (op := .send room) (fun _ _ => rfl)) room
  obtain ⟨c', h1, h2⟩ := updates_ends _ (c.flush room).2 _ hi'
  obtain ⟨h3, h4⟩ := h2 (List.drop_eq_nil_of_le (by omega)) (by
    show 29 * c.outstanding.length ≤ room - c.buf.length
    omega)
  have hi2 := updates_inv _ _ _ _ hi' h1
  refine ⟨c', h1, h4, h3, fun id p hw h0 => ?_⟩
  have hw' : wanted (ops ++ [.send room]) id = some p := by rw [wanted_snoc]; exact hw
  cases hst : c'.streams id with
  | none => rw [hi2.closed id hst] at hw'; cases hw'
  | some x =>
    obtain ⟨w1, _, _, w4, q0, w5, w6⟩ := hi2.opened id x hst
    rw [w1] at hw'; cases hw'
    rw [openedWith_append h0] at w5; cases w5
    rw [← w6]
    by_cases e : x.prio = x.last
    · exact e.symm
    · have := w4 e
      rw [h3] at this
      cases this

/-- Every priority that is given to a stream is `p`. -/
def Spec.OnlyGiven (id : Nat) (p : Priority) : CtlOp → Prop
  | .fetch i q => i = id → q = p
  | .pushStream i _ => i = id → p = ⟨3, false⟩
  | .setPriority i q => i = id → q = p
  | .queue s => updateOf s = none
  | _ => True

/-- The first priority is the only one as long as it is the only one that was given. -/
theorem only_given_step {id : Nat} {p : Priority} {op : CtlOp} (hg : Spec.OnlyGiven id p op)
    {c c' : Control} (h : c.step op = some c')
    (hw : ∀ s ∈ c.written, ∀ i q, updateOf s = some (i, q) → i ≠ id)
    (hst : ∀ x, c.streams id = some x → x.prio = p ∧ x.last = p) :
    (∀ s ∈ c'.written, ∀ i q, updateOf s = some (i, q) → i ≠ id) ∧
    (∀ x, c'.streams id = some x → x.prio = p ∧ x.last = p) := by
  cases op with
  | fetch i q =>
    cases h
    refine ⟨hw, fun x hx => ?_⟩
    simp only [Control.setStream] at hx
    split at hx
    · rename_i e
      cases hx
      exact ⟨hg e.symm, hg e.symm⟩
    · exact hst x hx
  | pushStream i q =>
    cases h
    refine ⟨hw, fun x hx => ?_⟩
    simp only [Control.setStream] at hx
    split at hx
    · rename_i e
      cases hx
      exact ⟨(hg e.symm).symm, (hg e.symm).symm⟩
    · exact hst x hx
  | removed i =>
    cases h
    refine ⟨hw, fun x hx => ?_⟩
    simp only [Control.setStream] at hx
    split at hx
    · cases hx
    · exact hst x hx
  | setPriority i q =>
    simp only [Control.step, Option.some.injEq] at h
    subst h
    unfold Control.setPriority
    cases hs : c.streams i with
    | none => exact ⟨hw, hst⟩
    | some y =>
      simp only
      by_cases hq : q = y.prio
      · have hu : (y.update q) = (y, false) := by simp [PrioHandler.update, hq]
        simp only [hu, Bool.false_eq_true, if_false]
        exact ⟨hw, hst⟩
      · have hu : (y.update q) = ({ y with prio := q }, true) := by simp [PrioHandler.update, hq]
        simp only [hu, if_true]
        refine ⟨hw, fun x hx => ?_⟩
        simp only [Control.setStream] at hx
        split at hx
        · rename_i e
          subst e
          exact absurd ((hg rfl).trans (hst y hs).1.symm) hq
        · exact hst x hx
  | queue s =>
    simp only [Control.step, Control.queueFrame, Option.bind_eq_bind, Option.bind_eq_some_iff,
      Option.pure_def, Option.some.injEq] at h
    obtain ⟨bs, he, rfl⟩ := h
    refine ⟨fun x hx i q hu => ?_, hst⟩
    rcases List.mem_append.mp hx with hx | hx
    · exact hw x hx i q hu
    · cases List.mem_singleton.mp hx
      rw [show updateOf s = none from hg] at hu; cases hu
  | send room =>
    refine ⟨fun s hs i q hu => ?_, fun x hx => ?_⟩
    · obtain ⟨new, n1, n2, _⟩ := updates_new _ _ _ _ h
      rw [n1] at hs
      rcases List.mem_append.mp hs with hs | hs
      · exact hw s hs i q hu
      · obtain ⟨j, x, f, hx, hf, rfl⟩ := n2 s hs
        rw [(frame_updateOf hf).1] at hu
        cases hu
        intro e
        subst e
        obtain ⟨a, b⟩ := hst x hx
        exact (frame_updateOf hf).2 (a.trans b.symm)
    · obtain ⟨y, hy, y1, y2⟩ := updates_streams _ _ _ _ h id x hx
      obtain ⟨a, b⟩ := hst y hy
      rcases y2 with y2 | y2
      · exact ⟨y1.trans a, y2.trans b⟩
      · exact ⟨y1.trans a, y2.trans a⟩

/-- C109, what is missing: the priority that a request is made with is not told to the
server, not even when the application asks for it again.  (It is not among the fields of
the request either: `C110_server_gets_the_request`.) -/
theorem C109_first_priority_not_told (id : Nat) (p : Priority) (ops : List CtlOp)
    (hg : ∀ op ∈ ops, Spec.OnlyGiven id p op) {c : Control} (h : Control.create.run ops = some c) :
    ∀ s ∈ c.written, ∀ i q, updateOf s = some (i, q) → i ≠ id := by
  suffices H : ∀ (ops : List CtlOp) (c c' : Control), (∀ op ∈ ops, Spec.OnlyGiven id p op) →
      (∀ s ∈ c.written, ∀ i q, updateOf s = some (i, q) → i ≠ id) →
      (∀ x, c.streams id = some x → x.prio = p ∧ x.last = p) → c.run ops = some c' →
      ∀ s ∈ c'.written, ∀ i q, updateOf s = some (i, q) → i ≠ id from
    H ops Control.create c hg (fun s hs => by cases hs) (fun x hx => by cases hx) h
  intro ops
  induction ops with
  | nil =>
    intro c c' _ hw _ h
    cases h
    exact hw
  | cons op ops ih =>
    intro c c' hg hw hst h
    unfold Control.run at h
    cases hs : c.step op with
    | none => simp only [hs] at h; cases h
    | some c1 =>
      simp only [hs] at h
      obtain ⟨a, b⟩ := only_given_step (hg op (by simp)) hs hw hst
      exact ih c1 c' (fun o ho => hg o (by simp [ho])) a b h

/-- C109, what is missing: the update for a push names the stream that carries the push where
the push ID is to stand (RFC 9218, section 7.2). -/
theorem C109_push_update_names_stream (id pushId : Nat) (hid : id < 2 ^ 62) (p : Priority)
    (hp : p.urgency < 8) (hne : p ≠ ⟨3, false⟩) :
    ∃ c, Control.create.run [.pushStream id pushId, .setPriority id p, .send 100] = some c ∧
      c.written = [.frame (.priorityUpdatePush id p)] := by
  obtain ⟨bs, he⟩ := sendable_encodes (s := .frame (.priorityUpdatePush id p)) ⟨hid, hp⟩
  have hx : (PrioHandler.mk true p ⟨3, false⟩).frame id = some (.priorityUpdatePush id p) := by
    simp [PrioHandler.frame, hne]
  have hl := frame_length hx he
  have hl' : bs.length ≤ 99 := by omega
  simp [Control.run, Control.step, Control.create, Control.setPriority, Control.setStream,
    PrioHandler.update, PrioHandler.new, Priority.default, hne, Control.send, Control.flush,
    Control.updates, hx, he, Control.sendAtomic, hl']

/-! ## Examples -/

/-- A request with the default priority; the application changes it twice before the
transport has room, and once more later; settings are in the buffer. -/
def exPrio : List CtlOp :=
  [.queue (.frame (.settings (Settings.ofParams ⟨65536, 20, true, true, false⟩))),
   .fetch 0 ⟨3, false⟩, .fetch 4 ⟨1, false⟩, .setPriority 0 ⟨5, true⟩, .setPriority 4 ⟨0, false⟩,
   .send 3, .setPriority 0 ⟨6, false⟩, .send 40, .queue (.frame (.goaway 8)), .setPriority 0 ⟨2, true⟩, .removed 4]

example : (∀ op ∈ exPrio, Spec.CtlOp.Ok op) ∧ (opens exPrio).Nodup := by
  refine ⟨?_, by decide⟩
  intro op hop
  simp only [exPrio, List.mem_cons, List.not_mem_nil, or_false] at hop
  have hs : Settings.Ok (Settings.ofParams ⟨65536, 20, true, true, false⟩) := by decide
  rcases hop with rfl | rfl | rfl | rfl | rfl | rfl | rfl | rfl | rfl | rfl | rfl
  · exact ⟨hs, rfl⟩
  all_goals simp [Spec.CtlOp.Ok, Sendable, updateOf]

example : (match Control.create.run exPrio with
    | some c => decide (c.written.drop 1 = [.frame (.priorityUpdateRequest 0 ⟨6, false⟩),
        .frame (.priorityUpdateRequest 4 ⟨0, false⟩), .frame (.goaway 8)] ∧ c.outstanding = [0] ∧
        (c.setPriority 0 ⟨2, true⟩).map Prod.snd = some false ∧ (c.setPriority 4 ⟨2, true⟩).map Prod.snd = none)
    | none => false) = true := by decide +kernel

example : wanted exPrio 0 = some ⟨2, true⟩ ∧ wanted exPrio 4 = none ∧
    openedWith exPrio 0 = some ⟨3, false⟩ := by decide

/-- A request that is to be the most urgent; the server never hears of it. -/
example : ∀ op ∈ [CtlOp.fetch 0 ⟨0, false⟩, .send 1000, .setPriority 0 ⟨0, false⟩, .send 1000],
    Spec.OnlyGiven 0 ⟨0, false⟩ op := by
  simp [Spec.OnlyGiven]

end Neqo.H3
