import Verif.Hs.Spec
import Verif.Lib.Basic

namespace Neqo.Hs
open Neqo.Codec (Bytes)
open Neqo.Pkt (Version)
open Spec

theorem compatible_iff (a b : Version) : compatible a b = true ↔ Compatible a b := by
  cases a <;> cases b <;> simp [compatible, Compatible]

theorem Spec.Compatible.symm {a b : Version} (h : Compatible a b) : Compatible b a := by
  rcases h with h | h
  · exact .inl h.symm
  · exact .inr ⟨h.2, h.1⟩

theorem Spec.Compatible.trans {a b c : Version} (h : Compatible a b) (k : Compatible b c) : Compatible a c := by
  rcases h with h | h
  · subst h; exact k
  · rcases k with k | k
    · subst k; exact .inr h
    · exact .inr ⟨h.1, k.2⟩

theorem Spec.Compatible.refl (a : Version) : Compatible a a := .inl rfl

theorem wire_inj {a b : Version} (h : a.wire = b.wire) : a = b := by
  cases a <;> cases b <;> first | rfl | (simp [Version.wire] at h)

theorem ofWire_wire (v : Version) : Version.ofWire v.wire = some v := by cases v <;> rfl

theorem wire_mem {v : Version} {vs : List Version} : v.wire ∈ wires vs ↔ v ∈ vs := by
  simp only [wires, List.mem_map]
  constructor
  · rintro ⟨u, hu, e⟩
    rw [← wire_inj e]; exact hu
  · exact fun h => ⟨v, h, rfl⟩

theorem grease_even (r : Nat) : grease r % 2 = 0 := by
  have h : (grease r).testBit 0 = false := by
    simp only [grease, Nat.testBit_or, Nat.testBit_and]
    have h1 : Nat.testBit 0xf0f0f0f0 0 = false := by decide
    have h2 : Nat.testBit 0x0a0a0a0a 0 = false := by decide
    simp only [h1, h2, Bool.and_false, Bool.or_false]
  rw [Nat.testBit_zero] at h
  have := of_decide_eq_false h
  omega

theorem grease_not_wire (r : Nat) (v : Version) : v.wire ≠ grease r := by
  intro h
  have := grease_even r
  rw [← h] at this
  cases v <;> simp [Version.wire] at this

theorem findPreferred_some {prefs : List Version} {vn : List Nat} {v : Version} :
    findPreferred prefs vn = some v → Best prefs vn v := by
  induction prefs with
  | nil => intro h; cases h
  | cons u us ih =>
    intro h
    rw [findPreferred] at h
    by_cases hu : u.wire ∈ vn
    · rw [if_pos hu] at h
      cases h
      exact ⟨[], us, rfl, hu, by simp⟩
    · rw [if_neg hu] at h
      obtain ⟨b, a, e, h1, h2⟩ := ih h
      refine ⟨u :: b, a, by rw [e]; rfl, h1, ?_⟩
      intro w hw
      rcases List.mem_cons.mp hw with hw | hw
      · rw [hw]; exact hu
      · exact h2 w hw

theorem findPreferred_best {prefs : List Version} {vn : List Nat} {v : Version} (h : Best prefs vn v) :
    findPreferred prefs vn = some v := by
  obtain ⟨b, a, rfl, h1, h2⟩ := h
  induction b with
  | nil => simp [findPreferred, h1]
  | cons u us ih =>
    rw [List.cons_append, findPreferred, if_neg (h2 u List.mem_cons_self)]
    exact ih fun w hw => h2 w (List.mem_cons_of_mem _ hw)

theorem findPreferred_none {prefs : List Version} {vn : List Nat} (h : findPreferred prefs vn = none) :
    ∀ v ∈ prefs, v.wire ∉ vn := by
  induction prefs with
  | nil => simp
  | cons u us ih =>
    rw [findPreferred] at h
    by_cases hu : u.wire ∈ vn
    · rw [if_pos hu] at h; cases h
    · rw [if_neg hu] at h
      intro w hw
      rcases List.mem_cons.mp hw with hw | hw
      · rw [hw]; exact hu
      · exact ih h w hw

theorem Spec.Best.mem {prefs : List Version} {vn : List Nat} {v : Version} (h : Best prefs vn v) : v ∈ prefs := by
  obtain ⟨b, a, rfl, _⟩ := h
  simp

theorem Spec.Best.offered {prefs : List Version} {vn : List Nat} {v : Version} (h : Best prefs vn v) :
    v.wire ∈ vn := h.choose_spec.choose_spec.2.1

/-- Filtering preferences. -/
theorem best_filter {f : Version → Bool} {prefs : List Version} {vn : List Nat} {v : Version}
    (h : Best (prefs.filter f) vn v) :
    f v = true ∧ v.wire ∈ vn ∧ ∃ b a, prefs = b ++ v :: a ∧ ∀ u ∈ b, ¬ (f u = true ∧ u.wire ∈ vn) := by
  obtain ⟨b, a, e, h1, h2⟩ := h
  induction prefs generalizing b with
  | nil => simp at e
  | cons u us ih =>
    by_cases hu : f u = true
    · rw [List.filter_cons, if_pos hu] at e
      cases b with
      | nil =>
        simp only [List.nil_append, List.cons.injEq] at e
        obtain ⟨e1, _⟩ := e
        subst e1
        exact ⟨hu, h1, [], us, rfl, by simp⟩
      | cons w b =>
        simp only [List.cons_append, List.cons.injEq] at e
        obtain ⟨e1, e2⟩ := e
        subst e1
        obtain ⟨r1, r2, b', a', r3, r4⟩ := ih b e2 fun x hx => h2 x (List.mem_cons_of_mem _ hx)
        refine ⟨r1, r2, u :: b', a', by rw [r3]; rfl, ?_⟩
        intro x hx
        rcases List.mem_cons.mp hx with hx | hx
        · subst hx
          exact fun hh => h2 x List.mem_cons_self hh.2
        · exact r4 x hx
    · rw [List.filter_cons, if_neg hu] at e
      obtain ⟨r1, r2, b', a', r3, r4⟩ := ih b e h2
      refine ⟨r1, r2, u :: b', a', by rw [r3]; rfl, ?_⟩
      intro x hx
      rcases List.mem_cons.mp hx with hx | hx
      · subst hx
        exact fun hh => hu hh.1
      · exact r4 x hx

/-- What a client offers. -/
theorem client_offer (c : Config) (r : Nat) (v : Version) :
    v.wire ∈ (versionInfo true c r).other ↔ v ∈ c.all ∧ Compatible c.initial v := by
  simp only [versionInfo, List.mem_cons, grease_not_wire, false_or, Bool.true_and, Bool.not_not]
  rw [show (List.map Version.wire (c.all.filter fun v => compatible c.initial v))
    = wires (c.all.filter fun v => compatible c.initial v) from rfl, wire_mem, List.mem_filter,
    compatible_iff]

/-- What a server lists. -/
theorem server_offer (c : Config) (r : Nat) (v : Version) :
    v.wire ∈ (versionInfo false c r).other ↔ v ∈ c.all := by
  simp only [versionInfo, List.mem_cons, grease_not_wire, false_or, Bool.false_and, Bool.not_false]
  rw [show (List.map Version.wire (c.all.filter fun _ => true)) = wires (c.all.filter fun _ => true) from rfl,
    wire_mem, List.mem_filter]
  simp

end Neqo.Hs
