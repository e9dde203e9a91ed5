import Verif.Sched.Whole

namespace Neqo.Sched

variable {σ γ : Type}

theorem sets_update (s : Sched σ) (upd : Nat → σ → σ) : sets (s.update upd).map = sets s.map := by
  unfold sets Sched.update
  dsimp only
  rw [List.map_map]
  rfl

theorem update_ok {s : Sched σ} (h : SOk s) (upd : Nat → σ → σ) : SOk (s.update upd) :=
  h.written (sets_update s upd) rfl

theorem sets_get {m m' : List (Nat × Strm σ)} (h : sets m' = sets m) {j id : Nat} {x : Strm σ}
    (hx : m[j]? = some (id, x)) : ∃ st, m'[j]? = some (id, { x with st }) := by
  have := congrArg (·[j]?) h
  unfold sets at this
  simp only [List.getElem?_map, hx, Option.map_some] at this
  cases hm : m'[j]? with
  | none => rw [hm] at this; cases this
  | some e =>
    rw [hm, Option.map_some] at this
    obtain ⟨a, b⟩ := Prod.mk.inj (Option.some.inj this)
    obtain ⟨b, c⟩ := Prod.mk.inj b
    obtain ⟨c, d⟩ := Prod.mk.inj c
    obtain ⟨i, y⟩ := e
    dsimp only at a b c d
    refine ⟨y.st, ?_⟩
    rw [a, ← b, ← c, ← d]

theorem shapes_single {gs gs' : List (Nat × Queues)} (h : shapes gs' = shapes gs) (s s' : Sched σ) (h1 : s.groups = gs)
    (h2 : s'.groups = gs') : s'.single = s.single := by
  unfold Sched.single
  rw [h1, h2]
  cases gs with
  | nil =>
    cases gs' with
    | nil => rfl
    | cons e l => cases h
  | cons e gs =>
    cases gs' with
    | nil => cases h
    | cons e' gs' =>
      unfold shapes at h
      rw [List.map_cons, List.map_cons] at h
      obtain ⟨a, b⟩ := List.cons.inj h
      obtain ⟨_, a⟩ := Prod.mk.inj a
      obtain ⟨a, _⟩ := Prod.mk.inj a
      cases gs with
      | nil =>
        cases gs' with
        | nil =>
          dsimp only
          cases ho : e.2.ordered with
          | nil =>
            rw [ho] at a
            rw [List.map_eq_nil_iff.mp a]
          | cons c l =>
            rw [ho] at a
            cases ho' : e'.2.ordered with
            | nil => rw [ho'] at a; cases a
            | cons c' l' => rfl
        | cons f l => cases b
      | cons f l =>
        cases gs' with
        | nil => cases b
        | cons f' l' => rfl

/-- Where a rotation is. -/
theorem rotation_get {start n d : Nat} (h : d < n) : (rotation start n)[d]? = some ((start + d) % n) := by
  unfold rotation
  rw [List.getElem?_map, List.getElem?_range h]
  rfl

/-- A cursor that stops before a place gets closer to it. -/
theorem closer {start n d i j : Nat} {pre post : List Nat} (hd : d < n) (hj : j = (start + d) % n)
    (hr : rotation start n = pre ++ i :: post) (hn : j ∉ pre ++ [i]) :
    ∃ d', d' < d ∧ j = ((i + 1) % n + d') % n := by
  have hlen : pre.length + 1 + post.length = n := by
    have := congrArg List.length hr
    unfold rotation at this
    rw [List.length_map, List.length_range, List.length_append, List.length_cons] at this
    omega
  have hi : i = (start + pre.length) % n := by
    have h1 := rotation_get (start := start) (show pre.length < n by omega)
    rw [hr, List.getElem?_append_right (Nat.le_refl _), Nat.sub_self] at h1
    exact Option.some.inj h1
  have hgt : pre.length < d := by
    rcases Nat.lt_or_ge pre.length d with hh | hh
    · exact hh
    · exfalso
      apply hn
      have h1 := rotation_get (start := start) hd
      rw [hr, ← hj] at h1
      rcases Nat.lt_or_ge d pre.length with h2 | h2
      · rw [List.getElem?_append_left h2] at h1
        exact List.mem_append_left _ (List.mem_of_getElem? h1)
      · have : d = pre.length := by omega
        rw [this, List.getElem?_append_right (Nat.le_refl _), Nat.sub_self] at h1
        have := Option.some.inj h1
        rw [← this]
        exact List.mem_append_right _ List.mem_cons_self
  refine ⟨d - pre.length - 1, by omega, ?_⟩
  rw [hi, Nat.mod_add_mod, hj, Nat.add_assoc, Nat.mod_add_mod]
  congr 1
  omega

theorem clamp_mod (i n : Nat) (h : 0 < n) : clamp ((i + 1) % n) n = (i + 1) % n := clamp_of_lt (Nat.mod_lt _ h)

theorem offered_within {w : Writer σ γ} (hw : WriterOk w) (d : Nat) : ∀ (s : Sched σ) (calls : List (Call σ γ)) (j id : Nat)
    (x : Strm σ), SOk s → s.single = true → s.map[j]? = some (id, x) → x.fair = true → d < s.map.length →
    j = (clamp s.rrNext s.map.length + d) % s.map.length → d < calls.length →
    (∀ c ∈ calls, ∀ st, w.has (c.upd id st) = true) → ∃ log ∈ packets w s calls, ∃ o ∈ log, o.id = id := by
  induction d using Nat.strongRecOn with
  | _ d ih =>
    intro s calls j id x h hs hj hf hd hjd hlen hhas
    cases calls with
    | nil => cases hlen
    | cons c cs =>
      have h' := update_ok h c.upd
      obtain ⟨e1, os1, os2, k1, _, _, _, k5, k6, k7, _, k9, k10, k11⟩ := writeFrames_spec hw h' c.sh c.rem
      have hmap : sets e1.map = sets s.map := k1.sets.trans (sets_update s c.upd)
      have hl1 : e1.map.length = s.map.length := sets_length hmap
      have hnn : s.groups ≠ [] := by
        intro hh
        unfold Sched.single at hs
        rw [hh] at hs
        cases hs
      have hx1 : (s.update c.upd).map[j]? = some (id, { x with st := c.upd id x.st }) := by
        unfold Sched.update
        dsimp only
        rw [List.getElem?_map, hj]
        rfl
      have hx2 : e1.map[j]? = some (id, { x with st := c.upd id x.st }) := by
        have hfind := k5 id _ (h'.keys.find (List.mem_of_getElem? hx1)) hf
        obtain ⟨st, hst⟩ := sets_get k1.sets hx1
        rw [hst]
        have := (sets_Keys k1.sets h'.keys).find (List.mem_of_getElem? hst)
        rw [hfind] at this
        rw [← Option.some.inj this]
      show ∃ log ∈ (((s.update c.upd).writeFrames w c.sh c.rem).2.calls ::
        packets w ((s.update c.upd).writeFrames w c.sh c.rem).1 cs), ∃ o ∈ log, o.id = id
      have found : id ∈ os2.map (·.id) → ∃ log ∈ (((s.update c.upd).writeFrames w c.sh c.rem).2.calls ::
        packets w ((s.update c.upd).writeFrames w c.sh c.rem).1 cs), ∃ o ∈ log, o.id = id := by
        intro hh
        obtain ⟨o, ho, hoi⟩ := List.mem_map.mp hh
        exact ⟨_, List.mem_cons_self, o, by rw [k11]; exact List.mem_append_right _ ho, hoi⟩
      have hhas1 : w.has (c.upd id x.st) = true := hhas c List.mem_cons_self x.st
      cases k10 with
      | none hh => exact absurd hh hnn
      | slow r _ hh =>
        have : (s.update c.upd).single = s.single := rfl
        rw [this, hs] at hh
        cases hh
      | fast r _ hs1 hg1 _ _ hr =>
        cases r with
        | none =>
          apply found
          have hlt : j < e1.map.length := (List.getElem?_eq_some_iff.mp hx2).1
          exact hr.2 j hlt id _ hx2 hf hhas1
        | some i =>
          obtain ⟨hrr, _, pre, post, hrot, hv⟩ := hr
          by_cases hjv : j ∈ pre ++ [i]
          · exact found (hv j hjv id _ hx2 hf hhas1)
          · rw [hl1] at hrot hrr
            obtain ⟨d', hd', hjd'⟩ := closer hd hjd hrot hjv
            have hmap2 : sets ((s.update c.upd).writeFrames w c.sh c.rem).1.map = sets s.map := by
              rw [k7]; exact k6.sets.trans hmap
            obtain ⟨st, hst⟩ := sets_get hmap2 hj
            have hl2 : ((s.update c.upd).writeFrames w c.sh c.rem).1.map.length = s.map.length := sets_length hmap2
            obtain ⟨log, hlog, o, ho⟩ := ih d' hd' _ cs j id _ k9
              (by rw [shapes_single (by rw [hg1]; rfl) s _ rfl rfl]; exact hs) hst hf (by rw [hl2]; omega)
              (by rw [hl2, hrr, clamp_mod _ _ (by omega)]; exact hjd') (by rw [List.length_cons] at hlen; omega)
              (fun c' hc' => hhas c' (List.mem_cons_of_mem _ hc'))
            exact ⟨log, List.mem_cons_of_mem _ hlog, o, ho⟩

theorem group_within {w : Writer σ γ} (hw : WriterOk w) (d : Nat) : ∀ (s : Sched σ) (calls : List (Call σ γ)) (j gid : Nat)
    (q : Queues), SOk s → s.single = false → s.groups[j]? = some (gid, q) → d < s.groups.length →
    j = (clamp s.groupNext s.groups.length + d) % s.groups.length → d < calls.length →
    ∃ log ∈ packets w s calls, ∃ o ∈ log, ∃ k, queuedIn s.groups gid k o.id := by
  induction d using Nat.strongRecOn with
  | _ d ih =>
    intro s calls j gid q h hs hj hd hjd hlen
    cases calls with
    | nil => cases hlen
    | cons c cs =>
      have h' := update_ok h c.upd
      obtain ⟨e1, os1, os2, k1, _, _, _, k5, k6, k7, _, k9, k10, k11⟩ := writeFrames_spec hw h' c.sh c.rem
      have hnn : s.groups ≠ [] := by
        intro hh
        rw [hh] at hj
        cases hj
      show ∃ log ∈ (((s.update c.upd).writeFrames w c.sh c.rem).2.calls ::
        packets w ((s.update c.upd).writeFrames w c.sh c.rem).1 cs), _
      have found : Visited s.groups os2 j → ∃ log ∈ (((s.update c.upd).writeFrames w c.sh c.rem).2.calls ::
        packets w ((s.update c.upd).writeFrames w c.sh c.rem).1 cs), ∃ o ∈ log, ∃ k, queuedIn s.groups gid k o.id := by
        intro hh
        obtain ⟨o, ho, hoi⟩ := hh gid q hj
        exact ⟨_, List.mem_cons_self, o, by rw [k11]; exact List.mem_append_right _ ho, hoi⟩
      cases k10 with
      | none hh => exact absurd hh hnn
      | fast r _ hh =>
        have : (s.update c.upd).single = s.single := rfl
        rw [this, hs] at hh
        cases hh
      | slow r _ _ hsh _ hr =>
        have hsh : shapes ((s.update c.upd).writeFrames w c.sh c.rem).1.groups = shapes s.groups := hsh
        cases r with
        | none => exact found (hr.1 j)
        | some i =>
          obtain ⟨hrr, _, pre, post, hrot, hv⟩ := hr
          have hrot : rotation (clamp s.groupNext s.groups.length) s.groups.length = pre ++ i :: post := hrot
          have hrr : ((s.update c.upd).writeFrames w c.sh c.rem).1.groupNext = (i + 1) % s.groups.length := hrr
          by_cases hjv : j ∈ pre ++ [i]
          · exact found (hv j hjv)
          · obtain ⟨d', hd', hjd'⟩ := closer hd hjd hrot hjv
            have hl2 := shapes_length hsh
            obtain ⟨q', hq', _⟩ := shapes_get hsh.symm j hj
            obtain ⟨log, hlog, o, ho, k, hk⟩ := ih d' hd' _ cs j gid q' k9
              (by rw [shapes_single hsh s _ rfl rfl]; exact hs) hq' (by rw [hl2]; omega)
              (by rw [hl2, hrr, clamp_mod _ _ (by omega)]; exact hjd') (by rw [List.length_cons] at hlen; omega)
            exact ⟨log, List.mem_cons_of_mem _ hlog, o, ho, k, (queuedIn_shapes h.gw hsh gid k o.id).mp hk⟩

/-- Every place is some distance away. -/
theorem exists_dist {start n j : Nat} (hs : start < n) (hj : j < n) : ∃ d, d < n ∧ j = (start + d) % n := by
  refine ⟨(j + n - start) % n, Nat.mod_lt _ (by omega), ?_⟩
  rw [Nat.add_mod_mod, show start + (j + n - start) = j + n by omega, Nat.add_mod_right, Nat.mod_eq_of_lt hj]

/-! ### The stream of `Verif.SendStream` -/

open Neqo.Send in
theorem writeReset_rem {s s' : Stream} {p : Prio} {rem : Nat} {wr : Send.Wrote} {b : Bool}
    (h : s.writeReset p rem = .ok (s', wr, b)) :
    wr.rem ≤ rem ∧ wr.frames.any isStream = false := by
  have hr : ∀ err final rel, [resetFrame err final rel].any isStream = false := by
    intro err final rel
    unfold resetFrame
    split <;> rfl
  unfold Stream.writeReset at h
  split at h
  · split at h
    · cases h; exact ⟨Nat.le_refl _, rfl⟩
    · split at h
      · cases h
      · split at h
        · cases h; exact ⟨Nat.sub_le _ _, hr _ _ _⟩
        · cases h; exact ⟨Nat.le_refl _, rfl⟩
  · split at h
    · cases h; exact ⟨Nat.le_refl _, rfl⟩
    · split at h
      · cases h
      · split at h
        · cases h; exact ⟨Nat.sub_le _ _, hr _ _ _⟩
        · cases h; exact ⟨Nat.le_refl _, rfl⟩
  · cases h; exact ⟨Nat.le_refl _, rfl⟩

open Neqo.Send in
theorem writeFc_rem {fc fc' : Flow.SFc} {id rem : Nat} {wr : Send.Wrote} (h : writeFc fc id rem = .ok (fc', wr)) :
    wr.rem ≤ rem ∧ wr.frames.any isStream = false := by
  unfold writeFc at h
  split at h
  · cases h; exact ⟨Nat.le_refl _, rfl⟩
  · split at h
    · cases h
    · split at h
      · cases h; exact ⟨Nat.sub_le _ _, rfl⟩
      · cases h; exact ⟨Nat.le_refl _, rfl⟩

open Neqo.Send in
theorem writeBlocked_rem {s s' : Stream} {p : Prio} {rem : Nat} {wr : Send.Wrote}
    (h : s.writeBlocked p rem = .ok (s', wr)) :
    wr.rem ≤ rem ∧ wr.frames.any isStream = false := by
  unfold Stream.writeBlocked at h
  split at h
  · split at h
    · split at h
      · cases h
      · rename_i hh; cases h; exact writeFc_rem hh
    · split at h
      · cases h
      · rename_i hh; cases h; exact writeFc_rem hh
    · cases h; exact ⟨Nat.le_refl _, rfl⟩
  · cases h; exact ⟨Nat.le_refl _, rfl⟩

open Neqo.Send in
theorem writeStream_rem {s s' : Stream} {conn conn' : Flow.SFc} {p : Prio} {rem split : Nat} {wr : Send.Wrote}
    (h : s.writeStream conn p rem split = .ok (s', conn', wr)) :
    wr.rem ≤ rem ∧ (wr.frames.any isStream = true → wr.rem < rem) := by
  have nothing : ∀ {w : Send.Wrote}, w = ⟨rem, []⟩ → w.rem ≤ rem ∧
      (w.frames.any isStream = true → w.rem < rem) := by
    intro w hw; rw [hw]; exact ⟨Nat.le_refl _, fun hh => by cases hh⟩
  unfold Stream.writeStream at h
  split at h
  · cases h; exact nothing rfl
  · split at h
    · cases h
    · cases h; exact nothing rfl
    · unfold Stream.writeData at h
      split at h
      · cases h
      · rename_i ov hov
        have hov1 : 1 ≤ ov := by
          unfold streamOverhead at hov
          split at hov
          · cases hov
          · split at hov
            · split at hov
              · cases hov
              · cases hov; omega
            · cases hov; omega
        split at h
        · cases h; exact nothing rfl
        · split at h
          · cases h
          · dsimp only at h
            split at h
            · cases h; exact nothing rfl
            · split at h
              · cases h
              · split at h
                · cases h
                · cases h
                  dsimp only
                  refine ⟨by split <;> omega, fun _ => by split <;> omega⟩

/-- The stream modelled in `Verif.SendStream` obeys the laws. -/
theorem sendWriter_ok (p : Send.Prio) (split : Nat) : WriterOk (sendWriter p split) := by
  have key : ∀ (conn : Flow.SFc) (s : Send.Stream) (rem : Nat),
      ((sendWriter p split).write conn s rem).rem ≤ rem ∧
      (((sendWriter p split).write conn s rem).wrote = true → ((sendWriter p split).write conn s rem).rem < rem) ∧
      (((sendWriter p split).write conn s rem).more = false → ((sendWriter p split).write conn s rem).rem < 2) := by
    intro conn s rem
    show _
    unfold sendWriter
    dsimp only
    cases hf : s.writeFrames conn p rem split with
    | error e =>
      dsimp only
      refine ⟨Nat.le_refl _, (fun h => by cases h), fun h => ?_⟩
      have := of_decide_eq_false h
      omega
    | ok v =>
      obtain ⟨s', conn', wr⟩ := v
      dsimp only
      refine ⟨?_, ?_, fun h => ?_⟩
      · unfold Send.Stream.writeFrames at hf
        split at hf
        · cases hf
        · rename_i h1; cases hf; exact (writeReset_rem h1).1
        · rename_i h1
          split at hf
          · cases hf
          · rename_i h2
            split at hf
            · cases hf
              exact Nat.le_trans (writeBlocked_rem h2).1 (writeReset_rem h1).1
            · split at hf
              · cases hf
              · rename_i h3
                cases hf
                exact Nat.le_trans (writeStream_rem h3).1 (Nat.le_trans (writeBlocked_rem h2).1 (writeReset_rem h1).1)
      · intro hany
        unfold Send.Stream.writeFrames at hf
        split at hf
        · cases hf
        · rename_i h1; cases hf; rw [(writeReset_rem h1).2] at hany; cases hany
        · rename_i h1
          split at hf
          · cases hf
          · rename_i h2
            split at hf
            · cases hf
              rw [List.any_append, (writeReset_rem h1).2, (writeBlocked_rem h2).2] at hany
              cases hany
            · split at hf
              · cases hf
              · rename_i h3
                cases hf
                rw [List.any_append, List.any_append, (writeReset_rem h1).2, (writeBlocked_rem h2).2] at hany
                have := (writeStream_rem h3).2 hany
                exact Nat.lt_of_lt_of_le this (Nat.le_trans (writeBlocked_rem h2).1 (writeReset_rem h1).1)
      · have := of_decide_eq_false (Bool.or_eq_false_iff.mp h).2
        omega
  exact ⟨fun a b c => (key a b c).1, fun a b c => (key a b c).2.1, fun a b c => (key a b c).2.2⟩

end Neqo.Sched
