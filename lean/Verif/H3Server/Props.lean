import Verif.H3Server.Model

/-!
# What `Http3Server` tells an application about its connections

The specification is `told`, the reports that name a connection, in order, and `dataOf`, the
reports among them that are not about the state of the connection.
-/
namespace Neqo.H3s

/-! ## Specification -/

/-- What the application was told about connection `k`. -/
def told (k : Nat) : List SEv → List HEv
  | [] => []
  | .of j e :: es => if j = k then e :: told k es else told k es
  | .prio _ :: es => told k es

/-- The reports among them that are not about its state. -/
def dataOf : List HEv → List Nat
  | [] => []
  | .data n :: es => n :: dataOf es
  | _ :: es => dataOf es

/-- The connection that the transport does something with. -/
def Act.key : Act → Nat
  | .accept k => k
  | .data k _ => k
  | .prio k _ => k
  | .bad k => k
  | .state k _ _ => k

/-! ## One connection at a time -/

theorem told_append (k : Nat) (a b : List SEv) : told k (a ++ b) = told k a ++ told k b := by
  induction a with
  | nil => rfl
  | cons e es ih =>
    cases e with
    | of j e => by_cases h : j = k <;> simp [told, h, ih]
    | prio s => simp [told, ih]

theorem dataOf_append (a b : List HEv) : dataOf (a ++ b) = dataOf a ++ dataOf b := by
  induction a with
  | nil => rfl
  | cons e es ih => cases e <;> simp [dataOf, ih]

/-- What a handler's reports come to. -/
def noPrio : HEv → Bool
  | .prio _ => false
  | _ => true

theorem told_tag (k : Nat) (l : List HEv) : told k (l.map (tag k)) = l.filter noPrio := by
  induction l with
  | nil => rfl
  | cons e es ih =>
    rw [List.filter_cons, List.map_cons, ← ih]
    cases e <;> simp [told, tag, noPrio]

theorem told_tag_ne {j k : Nat} (hn : j ≠ k) (l : List HEv) : told k (l.map (tag j)) = [] := by
  induction l with
  | nil => rfl
  | cons e es ih => cases e <;> simp [told, tag, ih, hn]

theorem dataOf_noPrio (l : List HEv) : dataOf (l.filter noPrio) = dataOf l := by
  induction l with
  | nil => rfl
  | cons e es ih =>
    rw [List.filter_cons]
    cases e <;> simp [dataOf, ih, noPrio]

theorem upd_self {A : Type} (f : Nat → A) (k : Nat) (a : A) : upd f k a k = a := by simp [upd]

theorem upd_ne {A : Type} (f : Nat → A) {j k : Nat} (a : A) (h : j ≠ k) : upd f k a j = f j := by
  simp [upd, h]

/-- What there is of one connection. -/
structure View where
  conn : Conn
  hd : Option Hd
  told : List HEv
  deriving DecidableEq

def World.view (w : World) (k : Nat) : View := ⟨w.conn k, w.hs k, H3s.told k w.evs⟩

def View.events (v : View) (ctl more : Bool) : View :=
  let r := (v.hd.getD Hd.new).run v.conn ctl more
  ⟨r.2, if r.1.out.any isClosed then none else some { r.1 with out := [] }, v.told ++ r.1.out.filter noPrio⟩

theorem view_events (w : World) (ctl more : Nat → Bool) (k : Nat) :
    (w.processEvents ctl more k).view k = (w.view k).events (ctl k) (more k) := by
  simp only [World.view, World.processEvents, View.events, upd_self, told_append, told_tag]
  rfl

theorem view_events_ne (w : World) (ctl more : Nat → Bool) {j k : Nat} (h : k ≠ j) :
    (w.processEvents ctl more j).view k = w.view k := by
  simp only [World.view, World.processEvents, upd_ne _ _ h, told_append, told_tag_ne (Ne.symm h),
    List.append_nil]

theorem view_fold (ctl more : Nat → Bool) (k : Nat) : ∀ (l : List Nat) (w : World), l.Nodup →
    (l.foldl (World.processEvents ctl more) w).view k =
      if k ∈ l then (w.view k).events (ctl k) (more k) else w.view k
  | [], w, _ => by simp
  | j :: l, w, hn => by
    obtain ⟨h1, h2⟩ := List.nodup_cons.mp hn
    rw [List.foldl_cons, view_fold ctl more k l _ h2]
    by_cases hk : k = j
    · subst hk
      simp [h1, view_events]
    · simp [hk, view_events_ne w ctl more hk]

theorem fold_same (ctl more : Nat → Bool) : ∀ (l : List Nat) (w : World),
    (l.foldl (World.processEvents ctl more) w).known = w.known ∧
    (l.foldl (World.processEvents ctl more) w).live = w.live ∧
    (l.foldl (World.processEvents ctl more) w).got = w.got
  | [], w => ⟨rfl, rfl, rfl⟩
  | j :: l, w => by
    rw [List.foldl_cons]
    exact fold_same ctl more l _

/-- The handler once it was asked whether it should be processed. -/
def View.asked (v : View) : View := { v with hd := v.hd.map fun h => { h with needs := false } }

theorem view_pass {w : World} (hn : w.known.Nodup) (ctl more : Nat → Bool) (k : Nat) :
    (w.pass ctl more).view k =
      if k ∈ w.known ∧ w.active k = true then (w.view k).asked.events (ctl k) (more k)
      else (w.view k).asked := by
  unfold World.pass
  rw [view_fold ctl more k _ _ (hn.filter _)]
  simp only [List.mem_filter]
  rfl

theorem pass_same (w : World) (ctl more : Nat → Bool) :
    (w.pass ctl more).known = w.known ∧ (w.pass ctl more).live = w.live ∧ (w.pass ctl more).got = w.got :=
  fold_same ctl more _ _

/-! ## What a handler does with the events -/

def tdata : List TEv → List Nat
  | [] => []
  | .data n :: es => n :: tdata es
  | _ :: es => tdata es

theorem tdata_append (a b : List TEv) : tdata (a ++ b) = tdata a ++ tdata b := by
  induction a with
  | nil => rfl
  | cons e es ih => cases e <;> simp [tdata, ih]

/-- Whether a report says that the connection ends. -/
def Ends (l : List HEv) : Prop := HEv.state .closing ∈ l ∨ HEv.state .closed ∈ l

/-- Whether an event says so. -/
def TEnds (l : List TEv) : Prop := ∃ s, TEv.state s ∈ l ∧ 2 ≤ s.rank

theorem setState_data (c : Conn) (s : TSt) (again : Bool) :
    tdata (c.setState s again).evs <+: tdata c.evs ∧ c.st.rank ≤ (c.setState s again).st.rank ∧
    ((c.setState s again).st.rank ≤ 1 → tdata (c.setState s again).evs = tdata c.evs) := by
  unfold Conn.setState
  split
  · rename_i h
    have hr : c.st.rank ≤ s.rank := by
      rcases h with h | h
      · omega
      · rw [h.1]; exact Nat.le_refl _
    cases s <;> simp [clears, tdata_append, tdata, TSt.rank] at hr ⊢ <;> omega
  · exact ⟨List.prefix_refl _, Nat.le_refl _, fun _ => rfl⟩

theorem setState_ends (c : Conn) (s : TSt) (again : Bool) (h : 2 ≤ (c.setState s again).st.rank) :
    TEnds (c.setState s again).evs ∨ (2 ≤ c.st.rank ∧ (TEnds c.evs → TEnds (c.setState s again).evs)) := by
  unfold Conn.setState at h ⊢
  split
  · rename_i hc
    rw [if_pos hc] at h
    exact Or.inl ⟨s, by simp, h⟩
  · rename_i hc
    rw [if_neg hc] at h
    exact Or.inr ⟨h, id⟩

/-- What a handler does with its events. -/
structure Ran (h : Hd) (c : Conn) (h' : Hd) (c' : Conn) (ok : Bool) : Prop where
  data : ∃ d, dataOf h'.out = dataOf h.out ++ d ∧ d ++ tdata c'.evs <+: tdata c.evs ∧
    (c'.st.rank ≤ 1 → d = tdata c.evs ∧ c'.evs = [])
  rank : c.st.rank ≤ c'.st.rank
  keep : ∀ e ∈ h.out, e ∈ h'.out
  closed : h'.st = .closed → h.st = .closed ∨ HEv.state .closed ∈ h'.out
  closing : h'.st = .closing → h.st = .closing ∨ HEv.state .closing ∈ h'.out
  ends : TEnds c.evs → h.st = .closing ∨ h.st = .closed ∨ Ends h'.out
  good : ok = false → c' = { c with evs := [] }
  bad : TEv.bad ∈ c.evs → ok = true
  fail : ok = true → HEv.state .closed ∈ h'.out ∧ 2 ≤ c'.st.rank ∧ h'.st = .closed

theorem loop_ran : ∀ (es : List TEv) (h : Hd) (c : Conn),
    Ran h { c with evs := es } (Hd.loop es h c).1.1 (Hd.loop es h c).1.2 (Hd.loop es h c).2
  | [], h, c => by
    refine ⟨⟨[], by simp [Hd.loop], by simp [Hd.loop, tdata], fun _ => by simp [Hd.loop, tdata]⟩, Nat.le_refl _,
      fun e he => he, fun h => Or.inl h, fun h => Or.inl h, ?_, fun _ => rfl, ?_, ?_⟩
    · rintro ⟨s, hs, _⟩; cases hs
    · intro hb; cases hb
    · intro hb; cases hb
  | .bad :: es, h, c => by
    have hs := setState_data { c with evs := es } .closing false
    have hr : 2 ≤ ((Conn.setState { c with evs := es } .closing false)).st.rank := by
      unfold Conn.setState
      split
      · exact Nat.le_refl _
      · rename_i hc
        simp only [TSt.rank] at hc ⊢
        cases hst : c.st <;> simp [hst, TSt.rank] at hc ⊢
    refine ⟨⟨[], ?_, ?_, ?_⟩, ?_, ?_, ?_, ?_, ?_, ?_, ?_, ?_⟩
    · simp [Hd.loop, Hd.fail, dataOf_append, dataOf]
    · simpa [Hd.loop, Hd.fail, tdata] using hs.1
    · intro hc
      simp only [Hd.loop, Hd.fail] at hc
      omega
    · exact hs.2.1
    · intro e he
      simp [Hd.loop, Hd.fail, he]
    · intro _
      right; simp [Hd.loop, Hd.fail]
    · intro hc
      simp [Hd.loop, Hd.fail] at hc
    · intro _
      right; right; right; simp [Hd.loop, Hd.fail]
    · intro hc; simp [Hd.loop] at hc
    · intro _; rfl
    · intro _
      exact ⟨by simp [Hd.loop, Hd.fail], hr, rfl⟩
  | .data n :: es, h, c => by
    have ih := loop_ran es { h with out := h.out ++ [.data n] } c
    obtain ⟨d, h1, h2, h3⟩ := ih.data
    refine ⟨⟨n :: d, ?_, ?_, ?_⟩, ih.rank, ?_, ?_, ?_, ?_, ?_, ?_, ih.fail⟩
    · simp only [Hd.loop, h1, dataOf_append, dataOf, List.append_assoc, List.cons_append, List.nil_append]
    · simp only [Hd.loop, tdata, List.cons_append]
      exact (List.prefix_cons_inj n).mpr h2
    · intro hr
      obtain ⟨a, b⟩ := h3 hr
      exact ⟨by simp only [tdata]; rw [a], b⟩
    · intro e he
      exact ih.keep e (by simp [he])
    · exact ih.closed
    · exact ih.closing
    · rintro ⟨s, hs, h2⟩
      exact ih.ends ⟨s, by simpa using hs, h2⟩
    · exact ih.good
    · intro hb
      exact ih.bad (by simpa using hb)
  | .prio n :: es, h, c => by
    have ih := loop_ran es { h with out := h.out ++ [.prio n] } c
    obtain ⟨d, h1, h2, h3⟩ := ih.data
    refine ⟨⟨d, ?_, ?_, ?_⟩, ih.rank, ?_, ?_, ?_, ?_, ?_, ?_, ih.fail⟩
    · simp only [Hd.loop, h1, dataOf_append, dataOf, List.append_nil]
    · exact h2
    · exact h3
    · intro e he
      exact ih.keep e (by simp [he])
    · exact ih.closed
    · exact ih.closing
    · rintro ⟨s, hs, h2⟩
      exact ih.ends ⟨s, by simpa using hs, h2⟩
    · exact ih.good
    · intro hb
      exact ih.bad (by simpa using hb)
  | .state s :: es, h, c => by
    have ih := loop_ran es (h.changed s) c
    obtain ⟨d, h1, h2, h3⟩ := ih.data
    have hd : dataOf (h.changed s).out = dataOf h.out := by
      unfold Hd.changed
      split
      · rfl
      · simp [dataOf_append, dataOf]
    have hk : ∀ e ∈ h.out, e ∈ (h.changed s).out := by
      intro e he
      unfold Hd.changed
      split
      · exact he
      · simp [he]
    have hcl : (h.changed s).st = .closed → h.st = .closed ∨ HEv.state .closed ∈ (h.changed s).out := by
      unfold Hd.changed
      split
      · exact Or.inl
      · intro ht
        right
        simp only at ht
        simp [ht]
    have hcg : (h.changed s).st = .closing → h.st = .closing ∨ HEv.state .closing ∈ (h.changed s).out := by
      unfold Hd.changed
      split
      · exact Or.inl
      · intro ht
        right
        simp only at ht
        simp [ht]
    have hen : 2 ≤ s.rank → h.st = .closing ∨ h.st = .closed ∨ Ends (h.changed s).out := by
      intro hs
      cases hst : h.st <;> cases s <;> simp [TSt.rank] at hs <;>
        simp [Hd.changed, HSt.change, hst, Ends]
    refine ⟨⟨d, ?_, ?_, ?_⟩, ih.rank, ?_, ?_, ?_, ?_, ?_, ?_, ih.fail⟩
    · simp only [Hd.loop, h1, hd]
    · exact h2
    · exact h3
    · intro e he
      exact ih.keep e (hk e he)
    · intro hc
      rcases ih.closed hc with h | h
      · rcases hcl h with h | h
        · exact Or.inl h
        · exact Or.inr (ih.keep _ h)
      · exact Or.inr h
    · intro hc
      rcases ih.closing hc with h | h
      · rcases hcg h with h | h
        · exact Or.inl h
        · exact Or.inr (ih.keep _ h)
      · exact Or.inr h
    · rintro ⟨t, ht, h2⟩
      have up : Ends (h.changed s).out → Ends (Hd.loop es (h.changed s) c).1.1.out := by
        rintro (h | h)
        · exact Or.inl (ih.keep _ h)
        · exact Or.inr (ih.keep _ h)
      rcases List.mem_cons.mp ht with ht | ht
      · cases ht
        rcases hen h2 with h | h | h
        · exact Or.inl h
        · exact Or.inr (Or.inl h)
        · exact Or.inr (Or.inr (up h))
      · rcases ih.ends ⟨t, ht, h2⟩ with h | h | h
        · rcases hcg h with h | h
          · exact Or.inl h
          · exact Or.inr (Or.inr (Or.inl (ih.keep _ h)))
        · rcases hcl h with h | h
          · exact Or.inr (Or.inl h)
          · exact Or.inr (Or.inr (Or.inr (ih.keep _ h)))
        · exact Or.inr (Or.inr h)
    · exact ih.good
    · intro hb
      exact ih.bad (by simpa using hb)

theorem sending_same (h : Hd) (ctl more : Bool) :
    (h.sending ctl more).out = h.out ∧ (h.sending ctl more).st = h.st := by
  unfold Hd.sending
  split <;> exact ⟨rfl, rfl⟩

/-- What `process_http3` does for a handler that is not closed. -/
theorem run_ran (h : Hd) (c : Conn) (ctl more : Bool) (hst : h.st ≠ .closed) :
    ∃ ok, Ran h c (h.run c ctl more).1 (h.run c ctl more).2 ok := by
  have hr := loop_ran c.evs h c
  unfold Hd.run
  rw [if_neg hst]
  rcases hl : Hd.loop c.evs h c with ⟨⟨h', c'⟩, ok⟩
  rw [hl] at hr
  refine ⟨ok, ?_⟩
  cases ok with
  | true => exact hr
  | false =>
    obtain ⟨s1, s2⟩ := sending_same h' ctl more
    dsimp only at hr ⊢
    refine ⟨by rw [s1]; exact hr.data, hr.rank, ?_, ?_, ?_, ?_, hr.good, hr.bad, ?_⟩
    · rw [s1]; exact hr.keep
    · rw [s1, s2]; exact hr.closed
    · rw [s1, s2]; exact hr.closing
    · rw [s1]; exact hr.ends
    · intro h; cases h

/-! ## The invariant -/

structure KInv (v : View) (got : List Nat) : Prop where
  hd : ∀ h, v.hd = some h → h.out = [] ∧ h.st ≠ .closed ∧ (h.st = .closing → Ends v.told)
  pre : dataOf v.told ++ tdata v.conn.evs <+: got
  eq : v.conn.st.rank ≤ 1 → dataOf v.told ++ tdata v.conn.evs = got
  ends : 2 ≤ v.conn.st.rank → TEnds v.conn.evs ∨ Ends v.told

theorem Ends.filter {l : List HEv} (h : Ends l) : Ends (l.filter noPrio) := by
  rcases h with h | h
  · exact Or.inl (List.mem_filter.mpr ⟨h, rfl⟩)
  · exact Or.inr (List.mem_filter.mpr ⟨h, rfl⟩)

theorem Ends.left {a : List HEv} (h : Ends a) (b : List HEv) : Ends (a ++ b) := by
  rcases h with h | h
  · exact Or.inl (List.mem_append_left _ h)
  · exact Or.inr (List.mem_append_left _ h)

theorem Ends.right {b : List HEv} (h : Ends b) (a : List HEv) : Ends (a ++ b) := by
  rcases h with h | h
  · exact Or.inl (List.mem_append_right _ h)
  · exact Or.inr (List.mem_append_right _ h)

/-- The handler that is used for a connection. -/
theorem KInv.used {v : View} {got : List Nat} (hi : KInv v got) :
    (v.hd.getD Hd.new).out = [] ∧ (v.hd.getD Hd.new).st ≠ .closed ∧
    ((v.hd.getD Hd.new).st = .closing → Ends v.told) := by
  cases hv : v.hd with
  | none => exact ⟨rfl, by simp [Hd.new], by simp [Hd.new]⟩
  | some h => exact hi.hd h hv

/-- After the pass over a connection: nothing waits unless it ends, and then that was told. -/
structure Done (v : View) (got : List Nat) : Prop where
  all : v.conn.st.rank ≤ 1 → dataOf v.told = got
  ends : 2 ≤ v.conn.st.rank → Ends v.told

theorem KInv.events {v : View} {got : List Nat} (hi : KInv v got) (ctl more : Bool) :
    KInv (v.events ctl more) got ∧ Done (v.events ctl more) got ∧
    (TEv.bad ∈ v.conn.evs →
      HEv.state .closed ∈ (v.events ctl more).told ∧ 2 ≤ (v.events ctl more).conn.st.rank) := by
  obtain ⟨h1, h2, h3⟩ := hi.used
  obtain ⟨ok, hr⟩ := run_ran (v.hd.getD Hd.new) v.conn ctl more h2
  obtain ⟨d, d1, d2, d3⟩ := hr.data
  rw [h1] at d1
  simp only [dataOf, List.nil_append] at d1
  have hdat : dataOf (v.events ctl more).told = dataOf v.told ++ d := by
    simp only [View.events, dataOf_append, dataOf_noPrio, d1]
  have hends : 2 ≤ (v.events ctl more).conn.st.rank → Ends (v.events ctl more).told := by
    intro hk
    cases ok with
    | true =>
      exact Ends.right (Ends.filter (Or.inr (hr.fail rfl).1)) _
    | false =>
      have hg := hr.good rfl
      have hk' : 2 ≤ v.conn.st.rank := by
        have : (v.events ctl more).conn = { v.conn with evs := [] } := hg
        rw [this] at hk
        exact hk
      rcases hi.ends hk' with h | h
      · rcases hr.ends h with h | h | h
        · exact Ends.left (h3 h) _
        · exact absurd h h2
        · exact Ends.right (Ends.filter h) _
      · exact Ends.left h _
  have hall : (v.events ctl more).conn.st.rank ≤ 1 →
      dataOf (v.events ctl more).told = got ∧ (v.events ctl more).conn.evs = [] := by
    intro hk
    obtain ⟨a, b⟩ := d3 hk
    have hv : v.conn.st.rank ≤ 1 := Nat.le_trans hr.rank hk
    rw [hdat, a]
    exact ⟨hi.eq hv, b⟩
  refine ⟨⟨?_, ?_, ?_, fun hk => Or.inr (hends hk)⟩, ⟨fun hk => (hall hk).1, hends⟩, ?_⟩
  · intro h hh
    simp only [View.events] at hh ⊢
    split at hh
    · cases hh
    · rename_i hany
      injection hh with hh
      subst hh
      refine ⟨rfl, ?_, ?_⟩
      · intro hc
        rcases hr.closed hc with h | h
        · exact h2 h
        · exact hany (List.any_eq_true.mpr ⟨_, h, rfl⟩)
      · intro hc
        rcases hr.closing hc with h | h
        · exact Ends.left (h3 h) _
        · exact Ends.right (Ends.filter (Or.inl h)) _
  · rw [hdat, List.append_assoc]
    exact ((List.prefix_append_right_inj _).mpr d2).trans hi.pre
  · intro hk
    obtain ⟨a, b⟩ := hall hk
    rw [a, b]
    simp [tdata]
  · intro hb
    obtain ⟨a, b, _⟩ := hr.fail (hr.bad hb)
    exact ⟨List.mem_append_right _ (List.mem_filter.mpr ⟨a, rfl⟩), b⟩

theorem KInv.asked {v : View} {got : List Nat} (hi : KInv v got) : KInv v.asked got := by
  refine ⟨?_, hi.pre, hi.eq, hi.ends⟩
  intro h hh
  simp only [View.asked] at hh
  cases hv : v.hd with
  | none => rw [hv] at hh; cases hh
  | some g =>
    rw [hv] at hh
    injection hh with hh
    subst hh
    exact hi.hd g hv

structure Inv (w : World) : Prop where
  nodup : w.known.Nodup
  sub : ∀ k ∈ w.live, k ∈ w.known
  key : ∀ k, KInv (w.view k) (w.got k)
  out : ∀ k ∈ w.known, k ∉ w.live → (w.conn k).st = .closed
  fresh : ∀ k, k ∉ w.known → w.conn k = ⟨.start, []⟩ ∧ w.hs k = none

theorem inv_new : Inv World.new := by
  refine ⟨List.nodup_nil, fun k h => h, fun k => ?_, fun k h => (by cases h), fun k _ => ⟨rfl, rfl⟩⟩
  refine ⟨fun h hh => (by cases hh), List.prefix_refl _, fun _ => rfl, fun h => ?_⟩
  simp [World.view, World.new, TSt.rank] at h

theorem open_iff {w : World} {k : Nat} : w.open k = true ↔ k ∈ w.live ∧ (w.conn k).st.rank ≤ 1 := by
  simp [World.open]

theorem TEnds.append {l : List TEv} (h : TEnds l) (e : TEv) : TEnds (l ++ [e]) := by
  obtain ⟨s, a, b⟩ := h
  exact ⟨s, List.mem_append_left _ a, b⟩

/-- A new event of a connection that is open. -/
theorem KInv.queue {v : View} {got : List Nat} (hi : KInv v got) (ho : v.conn.st.rank ≤ 1) (e : TEv) :
    KInv { v with conn := { v.conn with evs := v.conn.evs ++ [e] } } (got ++ tdata [e]) := by
  have he : dataOf v.told ++ tdata (v.conn.evs ++ [e]) = got ++ tdata [e] := by
    rw [tdata_append, ← List.append_assoc, hi.eq ho]
  refine ⟨hi.hd, ?_, fun _ => he, fun h => ?_⟩
  · show dataOf v.told ++ tdata (v.conn.evs ++ [e]) <+: _
    rw [he]
    exact List.prefix_refl _
  · exact absurd h (by show ¬ 2 ≤ v.conn.st.rank; omega)

theorem inv_queue {w : World} (hi : Inv w) {k : Nat} (ho : w.open k = true) (e : TEv) (g : Nat → List Nat)
    (hg : g = upd w.got k (w.got k ++ tdata [e])) : Inv { w.queue k e with got := g } := by
  obtain ⟨hl, hr⟩ := open_iff.mp ho
  subst hg
  refine ⟨hi.nodup, hi.sub, fun j => ?_, fun j hj hn => ?_, fun j hj => ?_⟩
  · by_cases hjk : j = k
    · subst hjk
      have := (hi.key j).queue hr e
      simpa [World.view, World.queue, upd] using this
    · have := hi.key j
      simpa [World.view, World.queue, upd, hjk] using this
  · by_cases hjk : j = k
    · subst hjk; exact absurd hl hn
    · simpa [World.queue, upd, hjk] using hi.out j hj hn
  · by_cases hjk : j = k
    · subst hjk; exact absurd (hi.sub j hl) hj
    · simpa [World.queue, upd, hjk] using hi.fresh j hj

theorem inv_act {w : World} (hi : Inv w) (a : Act) : Inv (w.act a) := by
  cases a with
  | accept k =>
    unfold World.act
    dsimp only
    by_cases hk : k ∈ w.known
    · rw [if_pos hk]; exact hi
    · rw [if_neg hk]
      refine ⟨?_, ?_, hi.key, ?_, ?_⟩
      · exact List.nodup_append.mpr ⟨hi.nodup, by simp, fun a ha b hb => by
          simp only [List.mem_singleton] at hb
          subst hb
          intro hab
          subst hab
          exact hk ha⟩
      · intro j hj
        rcases List.mem_append.mp hj with h | h
        · exact List.mem_append_left _ (hi.sub j h)
        · exact List.mem_append_right _ h
      · intro j hj hn
        simp only [List.mem_append, not_or] at hj hn
        rcases hj with h | h
        · exact hi.out j h hn.1
        · exact absurd h hn.2
      · intro j hj
        simp only [List.mem_append, not_or] at hj
        exact hi.fresh j hj.1
  | data k n =>
    unfold World.act
    dsimp only
    by_cases ho : w.open k = true
    · rw [if_pos ho]
      exact inv_queue hi ho _ _ rfl
    · rw [if_neg ho]; exact hi
  | prio k n =>
    unfold World.act
    dsimp only
    by_cases ho : w.open k = true
    · rw [if_pos ho]
      have := inv_queue hi ho (.prio n) w.got (by
        funext j
        by_cases h : j = k
        · subst h; simp [upd, tdata]
        · simp [upd, h])
      exact this
    · rw [if_neg ho]; exact hi
  | bad k =>
    unfold World.act
    dsimp only
    by_cases ho : w.open k = true
    · rw [if_pos ho]
      have := inv_queue hi ho .bad w.got (by
        funext j
        by_cases h : j = k
        · subst h; simp [upd, tdata]
        · simp [upd, h])
      exact this
    · rw [if_neg ho]; exact hi
  | state k s again =>
    unfold World.act
    dsimp only
    by_cases hl : k ∈ w.live
    · rw [if_pos hl]
      refine ⟨hi.nodup, hi.sub, fun j => ?_, fun j hj hn => ?_, fun j hj => ?_⟩
      · by_cases hjk : j = k
        · subst hjk
          have h := hi.key j
          obtain ⟨s1, s2, s3⟩ := setState_data (w.conn j) s again
          refine ⟨h.hd, ?_, ?_, ?_⟩
          · simp only [World.view, upd_self]
            exact ((List.prefix_append_right_inj _).mpr s1).trans h.pre
          · simp only [World.view, upd_self]
            intro hr
            rw [s3 hr]
            exact h.eq (Nat.le_trans s2 hr)
          · simp only [World.view, upd_self]
            intro hr
            rcases setState_ends _ _ _ hr with h1 | ⟨h1, h2⟩
            · exact Or.inl h1
            · rcases h.ends h1 with h3 | h3
              · exact Or.inl (h2 h3)
              · exact Or.inr h3
        · have := hi.key j
          simpa [World.view, upd, hjk] using this
      · by_cases hjk : j = k
        · subst hjk; exact absurd hl hn
        · simpa [upd, hjk] using hi.out j hj hn
      · by_cases hjk : j = k
        · subst hjk; exact absurd (hi.sub j hl) hj
        · simpa [upd, hjk] using hi.fresh j hj
    · rw [if_neg hl]; exact hi

theorem inv_acts : ∀ (l : List Act) {w : World}, Inv w → Inv (w.acts l)
  | [], _, hi => hi
  | a :: l, w, hi => inv_acts l (w := w.act a) (inv_act hi a)

/-- A connection that is closed stays so when its handler runs. -/
theorem events_closed {v : View} {got : List Nat} (hi : KInv v got) (ctl more : Bool)
    (hc : v.conn.st = .closed) : (v.events ctl more).conn.st = .closed := by
  obtain ⟨_, h2, _⟩ := hi.used
  obtain ⟨ok, hr⟩ := run_ran (v.hd.getD Hd.new) v.conn ctl more h2
  have := hr.rank
  rw [hc] at this
  show ((v.hd.getD Hd.new).run v.conn ctl more).2.st = .closed
  revert this
  cases ((v.hd.getD Hd.new).run v.conn ctl more).2.st <;> simp [TSt.rank]

theorem inv_pass {w : World} (hi : Inv w) (ctl more : Nat → Bool) : Inv (w.pass ctl more) := by
  obtain ⟨p1, p2, p3⟩ := pass_same w ctl more
  have hv := fun k => view_pass hi.nodup ctl more k
  have hconn : ∀ k, (w.pass ctl more).conn k = ((w.pass ctl more).view k).conn := fun _ => rfl
  have hhs : ∀ k, (w.pass ctl more).hs k = ((w.pass ctl more).view k).hd := fun _ => rfl
  refine ⟨by rw [p1]; exact hi.nodup, by rw [p1, p2]; exact hi.sub, fun k => ?_, fun k hk hl => ?_, fun k hk => ?_⟩
  · rw [hv k, p3]
    split
    · exact ((hi.key k).asked.events _ _).1
    · exact (hi.key k).asked
  · rw [p1] at hk
    rw [p2] at hl
    rw [hconn, hv k]
    have hc := hi.out k hk hl
    split
    · exact events_closed (hi.key k).asked _ _ hc
    · exact hc
  · rw [p1] at hk
    rw [hconn, hhs, hv k, if_neg (fun h => hk h.1)]
    obtain ⟨a, b⟩ := hi.fresh k hk
    refine ⟨a, ?_⟩
    simp [World.view, View.asked, b]

theorem inv_retain {w : World} (hi : Inv w) : Inv w.retain := by
  refine ⟨hi.nodup, fun k hk => hi.sub k (List.mem_filter.mp hk).1, hi.key, fun k hk hn => ?_, hi.fresh⟩
  by_cases hl : k ∈ w.live
  · by_cases hc : (w.conn k).st = .closed
    · exact hc
    · exact absurd (List.mem_filter.mpr ⟨hl, by simpa using hc⟩) hn
  · exact hi.out k hk hl

theorem inv_call {w : World} (hi : Inv w) (i : Call) : Inv (w.call i) := by
  have h1 := inv_pass (inv_acts i.ins hi) i.ctl i.more
  unfold World.call
  dsimp only
  split
  · exact h1
  · split
    · exact inv_acts i.outs h1
    · exact inv_retain (inv_acts i.outs h1)

theorem inv_step {w : World} (hi : Inv w) (o : Op) : Inv (w.step o) := by
  cases o with
  | call i => exact inv_call hi i
  | send k =>
    refine ⟨hi.nodup, hi.sub, fun j => ?_, hi.out, fun j hj => ⟨(hi.fresh j hj).1, ?_⟩⟩
    · have h := hi.key j
      refine ⟨?_, h.pre, h.eq, h.ends⟩
      intro g hg
      simp only [World.view, World.step, upd] at hg
      split at hg
      · rename_i hjk
        subst hjk
        cases hw : w.hs j with
        | none => rw [hw] at hg; cases hg
        | some g' =>
          rw [hw] at hg
          injection hg with hg
          subst hg
          exact h.hd g' hw
      · exact h.hd g hg
    · simp only [World.step, upd]
      split
      · rename_i hjk
        subst hjk
        rw [(hi.fresh j hj).2]
        rfl
      · exact (hi.fresh j hj).2
  | goaway id =>
    refine ⟨hi.nodup, hi.sub, fun j => ?_, hi.out, fun j hj => ⟨(hi.fresh j hj).1, ?_⟩⟩
    · have h := hi.key j
      refine ⟨?_, h.pre, h.eq, h.ends⟩
      intro g hg
      simp only [World.view, World.step] at hg
      cases hw : w.hs j with
      | none => rw [hw] at hg; cases hg
      | some g' =>
        rw [hw] at hg
        injection hg with hg
        subst hg
        exact h.hd g' hw
    · simp only [World.step, (hi.fresh j hj).2]
      rfl

theorem inv_run : ∀ (ops : List Op) {w : World}, Inv w → Inv (w.run ops)
  | [], _, hi => hi
  | o :: ops, w, hi => inv_run ops (w := w.step o) (inv_step hi o)

theorem reachable (ops : List Op) : Inv (World.new.run ops) := inv_run ops inv_new

/-! ## Calls that leave a connection alone -/

theorem act_view {w : World} {k : Nat} {a : Act} (h : a.key ≠ k) :
    (w.act a).view k = w.view k ∧ (w.act a).got k = w.got k ∧ (k ∈ (w.act a).live ↔ k ∈ w.live) ∧
    (k ∈ (w.act a).known ↔ k ∈ w.known) := by
  have hk : k ≠ a.key := Ne.symm h
  cases a with
  | accept j =>
    unfold World.act
    dsimp only
    have hk : k ≠ j := hk
    split <;> simp [World.view, hk]
  | data j n =>
    unfold World.act
    dsimp only
    have hk : k ≠ j := hk
    split <;> simp [World.view, World.queue, upd, hk]
  | prio j n =>
    unfold World.act
    dsimp only
    have hk : k ≠ j := hk
    split <;> simp [World.view, World.queue, upd, hk]
  | bad j =>
    unfold World.act
    dsimp only
    have hk : k ≠ j := hk
    split <;> simp [World.view, World.queue, upd, hk]
  | state j s again =>
    unfold World.act
    dsimp only
    have hk : k ≠ j := hk
    split <;> simp [World.view, upd, hk]

theorem acts_view {k : Nat} : ∀ (l : List Act) {w : World}, (∀ a ∈ l, a.key ≠ k) →
    (w.acts l).view k = w.view k ∧ (w.acts l).got k = w.got k ∧ (k ∈ (w.acts l).live ↔ k ∈ w.live) ∧
    (k ∈ (w.acts l).known ↔ k ∈ w.known)
  | [], _, _ => ⟨rfl, rfl, Iff.rfl, Iff.rfl⟩
  | a :: l, w, h => by
    obtain ⟨a1, a2, a3, a4⟩ := act_view (w := w) (h a (by simp))
    obtain ⟨b1, b2, b3, b4⟩ := acts_view l (w := w.act a) (fun x hx => h x (by simp [hx]))
    exact ⟨b1.trans a1, b2.trans a2, b3.trans a3, b4.trans a4⟩

/-- When the transport does nothing with a connection while it looks for output, the call ends
with what the pass left. -/
theorem call_view {w : World} {i : Call} {k : Nat} (h : i.sent = true ∨ ∀ a ∈ i.outs, a.key ≠ k) :
    (w.call i).view k = ((w.acts i.ins).pass i.ctl i.more).view k ∧
    (w.call i).got k = (w.acts i.ins).got k := by
  have p := pass_same (w.acts i.ins) i.ctl i.more
  unfold World.call
  dsimp only
  split
  · exact ⟨rfl, by rw [p.2.2]⟩
  · rename_i hs
    have ho : ∀ a ∈ i.outs, a.key ≠ k := by
      rcases h with h | h
      · exact absurd h hs
      · exact h
    obtain ⟨b1, b2, _, _⟩ := acts_view i.outs (w := (w.acts i.ins).pass i.ctl i.more) ho
    split
    · exact ⟨b1, by rw [b2, p.2.2]⟩
    · exact ⟨b1, by show _ = _; rw [← p.2.2, ← b2]; rfl⟩

theorem act_live {w : World} {k : Nat} (a : Act) (h : k ∈ w.live) : k ∈ (w.act a).live := by
  cases a <;> unfold World.act <;> dsimp only <;> split <;> simp_all [World.queue]

theorem acts_live {k : Nat} : ∀ (l : List Act) {w : World}, k ∈ w.live → k ∈ (w.acts l).live
  | [], _, h => h
  | a :: l, _, h => acts_live l (act_live a h)

/-- What is true of every connection of the transport's server after the pass. -/
theorem pass_done {w : World} (hi : Inv w) (ctl more : Nat → Bool) {k : Nat} (hk : k ∈ w.live) :
    Done ((w.pass ctl more).view k) (w.got k) := by
  have h := hi.key k
  rw [view_pass hi.nodup]
  by_cases ha : w.active k = true
  · rw [if_pos ⟨hi.sub k hk, ha⟩]
    exact (h.asked.events _ _).2.1
  · rw [if_neg (fun h => ha h.2)]
    have he : (w.conn k).evs = [] := by
      cases hev : (w.conn k).evs with
      | nil => rfl
      | cons e es =>
        refine absurd ?_ ha
        simp [World.active, hk, hev]
    refine ⟨fun hr => ?_, fun hr => ?_⟩
    · have := h.eq hr
      simpa [World.view, View.asked, he, tdata] using this
    · rcases h.ends hr with ⟨s, hs, _⟩ | h
      · simp [World.view, he] at hs
      · exact h

/-! ## Properties -/

/-- What the application is told about a connection is what that connection reported, in
order, without gaps and never twice, however many connections there are and whatever happens
to them. -/
theorem C112_in_order (ops : List Op) (k : Nat) :
    dataOf (told k (World.new.run ops).evs) <+: (World.new.run ops).got k :=
  (List.prefix_append _ _).trans ((reachable ops).key k).pre

/-- Everything that an open connection reports when it takes datagrams is told by the end of
the same call. -/
theorem C112_all_told (ops : List Op) (i : Call) (k : Nat)
    (hquiet : i.sent = true ∨ ∀ a ∈ i.outs, a.key ≠ k)
    (hopen : (((World.new.run ops).call i).conn k).st.rank ≤ 1) :
    dataOf (told k ((World.new.run ops).call i).evs) = ((World.new.run ops).call i).got k := by
  have hi := reachable ops
  generalize World.new.run ops = w at *
  have h1 := inv_acts i.ins hi
  obtain ⟨c1, c2⟩ := call_view (w := w) hquiet
  have hi' := inv_call hi i
  by_cases hk : k ∈ (w.acts i.ins).live
  · have hd := pass_done h1 i.ctl i.more hk
    rw [← c1, ← c2] at hd
    exact hd.all hopen
  · have hn : k ∉ (w.acts i.ins).known := by
      intro hkn
      have hc := h1.out k hkn hk
      have hc2 := (inv_pass h1 i.ctl i.more).out k (by rw [(pass_same _ _ _).1]; exact hkn)
        (by rw [(pass_same _ _ _).2.1]; exact hk)
      have : ((w.call i).conn k) = (((w.acts i.ins).pass i.ctl i.more).conn k) := congrArg View.conn c1
      rw [this, hc2] at hopen
      simp [TSt.rank] at hopen
    have h2 := ((inv_pass h1 i.ctl i.more).key k)
    rw [← c1, (pass_same _ _ _).2.2, ← c2] at h2
    have h3 := h2.eq hopen
    have hf := ((inv_pass h1 i.ctl i.more).fresh k (by rw [(pass_same _ _ _).1]; exact hn)).1
    have hce : ((w.call i).conn k) = (((w.acts i.ins).pass i.ctl i.more).conn k) := congrArg View.conn c1
    simp only [World.view, hce, hf, tdata, List.append_nil] at h3
    exact h3

/-- If a connection starts to close, or closes, when the server takes datagrams, the application
is told that it is closing or closed by the end of the same call.  Missing: connections that
close while the server looks for output, which is not told (`C112_timeout_not_told`), and that
`closed` is the last that is told (`C112_closing_after_closed`). -/
theorem C112_closing_told_partial (ops : List Op) (i : Call) (k : Nat)
    (hquiet : i.sent = true ∨ ∀ a ∈ i.outs, a.key ≠ k) (hlive : k ∈ (World.new.run ops).live)
    (hend : 2 ≤ (((World.new.run ops).call i).conn k).st.rank) :
    HEv.state .closing ∈ told k ((World.new.run ops).call i).evs ∨
    HEv.state .closed ∈ told k ((World.new.run ops).call i).evs := by
  have hi := reachable ops
  generalize World.new.run ops = w at *
  obtain ⟨c1, c2⟩ := call_view (w := w) hquiet
  have hd := pass_done (inv_acts i.ins hi) i.ctl i.more (acts_live i.ins hlive)
  rw [← c1, ← c2] at hd
  exact hd.ends hend

/-- A bad event waits, or was cleared because the connection ends. -/
theorem act_bad {w : World} {k : Nat} (a : Act) (hs : ∀ s again, a ≠ .state k s again)
    (h : TEv.bad ∈ (w.conn k).evs) : TEv.bad ∈ ((w.act a).conn k).evs := by
  cases a with
  | state j s again =>
    have hj : k ≠ j := by
      intro hjk
      subst hjk
      exact hs s again rfl
    unfold World.act
    dsimp only
    split
    · simpa [upd, hj] using h
    · exact h
  | accept j =>
    unfold World.act
    dsimp only
    split <;> exact h
  | data j n =>
    unfold World.act
    dsimp only
    split
    · by_cases hj : k = j
      · subst hj; simp [World.queue, upd, h]
      · simpa [World.queue, upd, hj] using h
    · exact h
  | prio j n =>
    unfold World.act
    dsimp only
    split
    · by_cases hj : k = j
      · subst hj; simp [World.queue, upd, h]
      · simpa [World.queue, upd, hj] using h
    · exact h
  | bad j =>
    unfold World.act
    dsimp only
    split
    · by_cases hj : k = j
      · subst hj; simp [World.queue, upd, h]
      · simpa [World.queue, upd, hj] using h
    · exact h

theorem act_open {w : World} {k : Nat} (a : Act) (hs : ∀ s again, a ≠ .state k s again)
    (h : w.open k = true) : (w.act a).open k = true := by
  obtain ⟨h1, h2⟩ := open_iff.mp h
  refine open_iff.mpr ⟨act_live a h1, ?_⟩
  cases a with
  | state j s again =>
    have hj : k ≠ j := by
      intro hjk
      subst hjk
      exact hs s again rfl
    unfold World.act
    dsimp only
    split
    · simpa [upd, hj] using h2
    · exact h2
  | accept j => unfold World.act; dsimp only; split <;> exact h2
  | data j n =>
    unfold World.act
    dsimp only
    split
    · by_cases hj : k = j
      · subst hj; simpa [World.queue, upd] using h2
      · simpa [World.queue, upd, hj] using h2
    · exact h2
  | prio j n =>
    unfold World.act
    dsimp only
    split
    · by_cases hj : k = j
      · subst hj; simpa [World.queue, upd] using h2
      · simpa [World.queue, upd, hj] using h2
    · exact h2
  | bad j =>
    unfold World.act
    dsimp only
    split
    · by_cases hj : k = j
      · subst hj; simpa [World.queue, upd] using h2
      · simpa [World.queue, upd, hj] using h2
    · exact h2

theorem acts_bad {k : Nat} : ∀ (l : List Act) {w : World}, (∀ a ∈ l, ∀ s again, a ≠ .state k s again) →
    w.open k = true → (Act.bad k ∈ l ∨ TEv.bad ∈ (w.conn k).evs) → TEv.bad ∈ ((w.acts l).conn k).evs
  | [], _, _, _, h => by
    rcases h with h | h
    · cases h
    · exact h
  | a :: l, w, hs, ho, h => by
    have ha := hs a (by simp)
    refine acts_bad l (w := w.act a) (fun x hx => hs x (by simp [hx])) (act_open a ha ho) ?_
    rcases h with h | h
    · rcases List.mem_cons.mp h with h | h
      · subst h
        right
        unfold World.act
        dsimp only
        rw [if_pos ho]
        simp [World.queue, upd]
      · exact Or.inl h
    · exact Or.inr (act_bad a ha h)

/-- If a client breaks the rules of HTTP/3, its connection is closed and the application is
told so by the end of the same call. -/
theorem C112_failure_told (ops : List Op) (i : Call) (k : Nat)
    (hquiet : i.sent = true ∨ ∀ a ∈ i.outs, a.key ≠ k) (hlive : k ∈ (World.new.run ops).live)
    (hopen : ((World.new.run ops).conn k).st.rank ≤ 1) (hbad : Act.bad k ∈ i.ins)
    (hstate : ∀ a ∈ i.ins, ∀ s again, a ≠ .state k s again) :
    HEv.state .closed ∈ told k ((World.new.run ops).call i).evs ∧
    2 ≤ (((World.new.run ops).call i).conn k).st.rank := by
  have hi := reachable ops
  generalize World.new.run ops = w at *
  obtain ⟨c1, _⟩ := call_view (w := w) hquiet
  have h1 := inv_acts i.ins hi
  have hl := acts_live i.ins hlive
  have hb := acts_bad i.ins hstate (open_iff.mpr ⟨hlive, hopen⟩) (Or.inl hbad)
  have ha : (w.acts i.ins).active k = true := by
    cases hev : ((w.acts i.ins).conn k).evs with
    | nil => rw [hev] at hb; cases hb
    | cons e es => simp [World.active, hl, hev]
  have hv := view_pass h1.nodup i.ctl i.more k
  rw [if_pos ⟨h1.sub k hl, ha⟩] at hv
  have he := (((h1.key k).asked.events (i.ctl k) (i.more k))).2.2 hb
  rw [← hv, ← c1] at he
  exact he

/-! ### What is not told -/

/-- A connection that left the transport's server, and whose handler has nothing to do. -/
structure Forgotten (w : World) (k : Nat) (h : Hd) : Prop where
  known : k ∈ w.known
  gone : k ∉ w.live
  hd : w.hs k = some h
  idle : h.due = false

theorem Forgotten.act {w : World} {k : Nat} {h : Hd} (hf : Forgotten w k h) (a : Act) :
    Forgotten (w.act a) k h ∧ told k (w.act a).evs = told k w.evs := by
  have ho : w.open k = false := by
    cases hc : w.open k with
    | false => rfl
    | true => exact absurd (open_iff.mp hc).1 hf.gone
  by_cases hk : a.key = k
  · have : w.act a = w := by
      cases a with
      | accept j =>
        have hk : j = k := hk
        subst hk
        unfold World.act; dsimp only; rw [if_pos hf.known]
      | data j n =>
        have hk : j = k := hk
        subst hk
        unfold World.act; dsimp only; rw [ho]; rfl
      | prio j n =>
        have hk : j = k := hk
        subst hk
        unfold World.act; dsimp only; rw [ho]; rfl
      | bad j =>
        have hk : j = k := hk
        subst hk
        unfold World.act; dsimp only; rw [ho]; rfl
      | state j s again =>
        have hk : j = k := hk
        subst hk
        unfold World.act; dsimp only; rw [if_neg hf.gone]
    rw [this]
    exact ⟨hf, rfl⟩
  · obtain ⟨b1, _, b3, b4⟩ := act_view (w := w) hk
    exact ⟨⟨b4.mpr hf.known, fun h => hf.gone (b3.mp h), (congrArg View.hd b1).trans hf.hd, hf.idle⟩,
      congrArg View.told b1⟩

theorem Forgotten.acts {k : Nat} {h : Hd} : ∀ (l : List Act) {w : World}, Forgotten w k h →
    Forgotten (w.acts l) k h ∧ told k (w.acts l).evs = told k w.evs
  | [], _, hf => ⟨hf, rfl⟩
  | a :: l, w, hf => by
    obtain ⟨h1, h2⟩ := hf.act a
    obtain ⟨h3, h4⟩ := Forgotten.acts l h1
    exact ⟨h3, h4.trans h2⟩

theorem Forgotten.call {w : World} {k : Nat} {h : Hd} (hi : Inv w) (hf : Forgotten w k h) (i : Call) :
    Forgotten (w.call i) k h ∧ told k (w.call i).evs = told k w.evs := by
  obtain ⟨a1, a2⟩ := hf.acts i.ins
  have hinv := inv_acts i.ins hi
  have ha : (w.acts i.ins).active k = false := by
    simp [World.active, a1.gone, a1.hd, a1.idle]
  have hneeds : h.needs = false := by
    have := hf.idle
    simp only [Hd.due, Bool.or_eq_false_iff] at this
    exact this.1.1
  have hv := view_pass hinv.nodup i.ctl i.more k
  rw [if_neg (fun h => by rw [ha] at h; exact absurd h.2 (by decide))] at hv
  obtain ⟨p1, p2, _⟩ := pass_same (w.acts i.ins) i.ctl i.more
  have hhd : ((w.acts i.ins).pass i.ctl i.more).hs k = some h := by
    have := congrArg View.hd hv
    refine this.trans ?_
    simp only [World.view, View.asked, a1.hd, Option.map_some, Option.some.injEq]
    cases h
    simp only at hneeds
    rw [hneeds]
  have b : Forgotten ((w.acts i.ins).pass i.ctl i.more) k h :=
    ⟨by rw [p1]; exact a1.known, by rw [p2]; exact a1.gone, hhd, hf.idle⟩
  have bt : told k ((w.acts i.ins).pass i.ctl i.more).evs = told k w.evs := (congrArg View.told hv).trans a2
  obtain ⟨c1, c2⟩ := b.acts i.outs
  unfold World.call
  dsimp only
  split
  · exact ⟨b, bt⟩
  · split
    · exact ⟨c1, c2.trans bt⟩
    · exact ⟨⟨c1.known, fun hk => c1.gone (List.mem_filter.mp hk).1, c1.hd, c1.idle⟩, c2.trans bt⟩

theorem Forgotten.calls {k : Nat} {h : Hd} : ∀ (is : List Call) {w : World}, Inv w → Forgotten w k h →
    (w.run (is.map Op.call)).hs k = some h ∧ told k (w.run (is.map Op.call)).evs = told k w.evs
  | [], _, _, hf => ⟨hf.hd, rfl⟩
  | i :: is, w, hi, hf => by
    obtain ⟨a, b⟩ := hf.call hi i
    obtain ⟨c, d⟩ := Forgotten.calls is (inv_call hi i) a
    exact ⟨c, d.trans b⟩

/-- A call in which the transport does only that. -/
def quiet (ins outs : List Act) : Call := ⟨ins, false, outs, false, fun _ => true, fun _ => false⟩

/-- A connection that is set up, and then times out while nothing else is going on. -/
def idleRun : List Op :=
  [.call (quiet [.accept 0, .state 0 .connected false] []), .call (quiet [] [.state 0 .closed false])]

/-- An idle timeout is not told, and the handler is kept for ever: the connection is closed while
the server looks for output, and leaves the transport's server in the same call, so that its
event is never taken. -/
theorem C112_timeout_not_told (is : List Call) :
    ((World.new.run idleRun).conn 0).st = .closed ∧
    told 0 (World.new.run (idleRun ++ is.map Op.call)).evs = [.state .connected] ∧
    (World.new.run (idleRun ++ is.map Op.call)).hs 0 ≠ none := by
  have hi := reachable idleRun
  have hf : Forgotten (World.new.run idleRun) 0 ⟨.connected, [], false, false, [], []⟩ :=
    ⟨by decide, by decide, by decide, by decide⟩
  obtain ⟨a, b⟩ := hf.calls is hi
  have hr : World.new.run (idleRun ++ is.map Op.call) = (World.new.run idleRun).run (is.map Op.call) := by
    simp [World.run, List.foldl_append]
  rw [hr, a, b]
  exact ⟨by decide, by decide, by simp⟩

/-- A connection whose client breaks the rules of HTTP/3, and that is over some calls later. -/
def badRun : List Op :=
  [.call (quiet [.accept 0, .state 0 .connected false] []), .call (quiet [.bad 0] []),
   .call (quiet [] []), .call (quiet [] [.state 0 .closed false])]

/-- After a connection was closed by the server it is told to be closing: the transport's own
event makes a new handler for it.  That handler is kept for ever. -/
theorem C112_closing_after_closed (is : List Call) :
    told 0 (World.new.run (badRun ++ is.map Op.call)).evs =
      [.state .connected, .state .closed, .state .closing] ∧
    (World.new.run (badRun ++ is.map Op.call)).hs 0 ≠ none := by
  have hi := reachable badRun
  have hf : Forgotten (World.new.run badRun) 0 ⟨.closing, [], false, false, [], []⟩ :=
    ⟨by decide, by decide, by decide, by decide⟩
  obtain ⟨a, b⟩ := hf.calls is hi
  have hr : World.new.run (badRun ++ is.map Op.call) = (World.new.run badRun).run (is.map Op.call) := by
    simp [World.run, List.foldl_append]
  rw [hr, a, b]
  exact ⟨by decide, by simp⟩

/-- An update of a priority does not say which connection it is for: two histories that differ
in that look the same to the application. -/
theorem C112_priority_without_connection :
    let start := [Act.accept 0, .accept 1, .state 0 .connected false, .state 1 .connected false]
    (World.new.run [.call (quiet start []), .call (quiet [.prio 0 4] [])]).evs =
      (World.new.run [.call (quiet start []), .call (quiet [.prio 1 4] [])]).evs ∧
    SEv.prio 4 ∈ (World.new.run [.call (quiet start []), .call (quiet [.prio 0 4] [])]).evs := by
  decide

/-! ### GOAWAY -/

/-- Events that do not concern the state of the connection. -/
def plain : TEv → Bool
  | .data _ => true
  | .prio _ => true
  | _ => false

theorem loop_plain : ∀ (es : List TEv) (h : Hd) (c : Conn), es.all plain = true →
    ∃ out, Hd.loop es h c = (({ h with out := h.out ++ out }, { c with evs := [] }), false) ∧
      out.any isClosed = false
  | [], h, c, _ => ⟨[], by simp [Hd.loop], rfl⟩
  | .data n :: es, h, c, ha => by
    obtain ⟨out, h1, h2⟩ := loop_plain es { h with out := h.out ++ [.data n] } c (by simpa [plain] using ha)
    exact ⟨.data n :: out, by simp [Hd.loop, h1], by simpa [isClosed] using h2⟩
  | .prio n :: es, h, c, ha => by
    obtain ⟨out, h1, h2⟩ := loop_plain es { h with out := h.out ++ [.prio n] } c (by simpa [plain] using ha)
    exact ⟨.prio n :: out, by simp [Hd.loop, h1], by simpa [isClosed] using h2⟩
  | .bad :: es, h, c, ha => by simp [plain] at ha
  | .state s :: es, h, c, ha => by simp [plain] at ha

/-- After the application asked for `GOAWAY`, the next call gives the frame to the transport for
every client that is connected, and does not fail or close in that call.  Missing: clients that
are being connected (`C112_goaway_not_for_new`). -/
theorem C112_goaway_partial (ops : List Op) (id : Nat) (i : Call) (k : Nat) (h : Hd)
    (hk : k ∈ (World.new.run ops).known) (hh : (World.new.run ops).hs k = some h) (hst : h.st = .connected)
    (hquiet : i.sent = true ∨ ∀ a ∈ i.outs, a.key ≠ k) (hctl : i.ctl k = true)
    (hplain : ((((World.new.run ops).step (.goaway id)).acts i.ins).conn k).evs.all plain = true) :
    ∃ h', (((World.new.run ops).step (.goaway id)).call i).hs k = some h' ∧
      h'.sent = h.sent ++ h.buf ++ [id] ∧ h'.buf = [] := by
  have hi := inv_step (reachable ops) (.goaway id)
  have hk' : k ∈ ((World.new.run ops).step (.goaway id)).known := hk
  have hh' : ((World.new.run ops).step (.goaway id)).hs k = some (h.goaway id) := by
    simp [World.step, hh]
  have hout := ((reachable ops).key k).hd h hh
  generalize (World.new.run ops).step (.goaway id) = w at *
  have h1 := inv_acts i.ins hi
  have hhs : ∀ (l : List Act) (w : World), k ∈ w.known → (w.acts l).hs = w.hs ∧ k ∈ (w.acts l).known := by
    intro l
    induction l with
    | nil => exact fun w h => ⟨rfl, h⟩
    | cons a l ih =>
      intro w hw
      have : (w.act a).hs = w.hs ∧ k ∈ (w.act a).known := by
        cases a <;> unfold World.act <;> dsimp only <;> split <;> simp_all [World.queue]
      obtain ⟨x, y⟩ := ih (w.act a) this.2
      exact ⟨x.trans this.1, y⟩
  obtain ⟨s1, s2⟩ := hhs i.ins w hk'
  have ha : (w.acts i.ins).active k = true := by
    simp [World.active, s1, hh', Hd.due, Hd.goaway]
  have hv := view_pass h1.nodup i.ctl i.more k
  rw [if_pos ⟨s2, ha⟩] at hv
  obtain ⟨c1, _⟩ := call_view (w := w) hquiet
  have hfin := congrArg View.hd (c1.trans hv)
  obtain ⟨out, l1, l2⟩ := loop_plain _ { (h.goaway id) with needs := false } ((w.acts i.ins).conn k) hplain
  have hrun : ({ (h.goaway id) with needs := false } : Hd).run ((w.acts i.ins).conn k) (i.ctl k) (i.more k) =
      (({ (h.goaway id) with needs := false, out := h.out ++ out } : Hd).sending (i.ctl k) (i.more k),
        { (w.acts i.ins).conn k with evs := [] }) := by
    unfold Hd.run
    rw [if_neg (by simp [Hd.goaway, hst]), l1]
    simp [Hd.goaway]
  have hhd : (w.call i).hs k = ((w.acts i.ins).view k |>.asked.events (i.ctl k) (i.more k)).hd := hfin
  rw [hhd]
  simp only [View.events, View.asked, World.view, s1, hh', Option.map_some, Option.getD_some, hrun]
  have ho : (({ (h.goaway id) with needs := false, out := h.out ++ out } : Hd).sending (i.ctl k) (i.more k)).out = out := by
    rw [(sending_same _ _ _).1, hout.1]
    rfl
  rw [ho, l2]
  refine ⟨_, rfl, ?_, ?_⟩
  · simp [Hd.sending, Hd.goaway, hst, hctl]
  · simp [Hd.sending, Hd.goaway, hst, hctl]

/-- A connection that is still being set up when the application asks does not get `GOAWAY`, not
even once it is connected. -/
theorem C112_goaway_not_for_new :
    let w := World.new.run [.call (quiet [.accept 0, .prio 0 0] []), .goaway 8,
      .call (quiet [.state 0 .connected false] []), .call (quiet [.data 0 1] [])]
    w.hs 0 = some ⟨.connected, [], false, false, [], []⟩ ∧ (w.conn 0).st = .connected := by
  decide

/-! ## Examples -/

/-- Two connections with reports, and one of them closes. -/
def exRun : List Op :=
  [.call (quiet [.accept 0, .accept 1, .state 0 .connected false, .state 1 .connected false] []),
   .send 0, .call (quiet [.data 0 5, .data 1 6, .data 0 7] [.data 1 8]), .goaway 4,
   .call (quiet [.state 0 .draining false] [])]

example : told 0 (World.new.run exRun).evs = [.state .connected, .data 5, .data 7, .state .closing] := by decide

example : told 1 (World.new.run exRun).evs = [.state .connected, .data 6, .data 8] := by decide

example : (World.new.run exRun).got 1 = [6, 8] ∧ 0 ∈ (World.new.run exRun).live ∧
    2 ≤ ((World.new.run exRun).conn 0).st.rank ∧ ((World.new.run exRun).conn 1).st.rank ≤ 1 := by decide

/-- The hypotheses of `C112_failure_told` and `C112_goaway_partial`. -/
example : 1 ∈ (World.new.run exRun).live ∧ Act.bad 1 ∈ (quiet [.data 1 9, .bad 1] []).ins ∧
    (World.new.run exRun).hs 1 = some ⟨.connected, [], false, false, [], [4]⟩ := by decide

end Neqo.H3s
