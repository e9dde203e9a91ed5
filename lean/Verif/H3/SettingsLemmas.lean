import Verif.H3.Settings
import Verif.Codec.Lemmas
import Verif.H3.ReaderLemmas

/-! Lemmas about settings. -/
namespace Neqo.H3
open Neqo.Codec

theorem add_eq (s : Settings) (t v : Nat) :
    s.add t v = match Spec.settingOf t with
      | none => .ok s
      | some ty =>
        if Spec.isSwitch ty ∧ v > 1 then .error .httpSettings
        else if ty = .enableH3Datagram ∧ s.any (fun x => x.ty = .enableH3Datagram) then .ok s
        else .ok (s ++ [⟨ty, v⟩]) := by
  unfold Settings.add
  split; · rename_i h; subst h; rfl
  split; · rename_i h; subst h; rfl
  split; · rename_i h; subst h; rfl
  split; · rename_i h; subst h; simp [Spec.settingOf, Spec.isSwitch, pure, Except.pure]
  split; · rename_i h; subst h; simp [Spec.settingOf, Spec.isSwitch, pure, Except.pure]
  split; · rename_i h; subst h; simp [Spec.settingOf, Spec.isSwitch, pure, Except.pure]
  split; · rename_i h; subst h; simp [Spec.settingOf, Spec.isSwitch, pure, Except.pure]
  have : Spec.settingOf t = none := by
    unfold Spec.settingOf
    split <;> simp_all
  rw [this]; rfl

/-- What a setting reads after some pairs were added. -/
theorem get_append (s : Settings) (x : Setting) (ty : SettingType) :
    Settings.get (s ++ [x]) ty =
      if s.any (fun y => y.ty = ty) then s.get ty else if x.ty = ty then x.value else s.get ty := by
  unfold Settings.get
  rw [List.find?_append]
  cases h : s.find? (fun y => y.ty = ty) with
  | some y =>
    have : s.any (fun y => y.ty = ty) = true := by
      rw [List.any_eq_true]
      exact ⟨y, List.mem_of_find?_eq_some h, by simpa using List.find?_some h⟩
    simp [this]
  | none =>
    have : s.any (fun y => y.ty = ty) = false := by
      rw [List.any_eq_false]
      simpa [List.find?_eq_none] using h
    simp only [this, Option.none_or]
    by_cases hx : x.ty = ty <;> simp [hx]

/-- The settings say what these pairs say. -/
def Says (s : Settings) (ps : List (Nat × Nat)) : Prop :=
  ∀ ty, s.any (fun y => y.ty = ty) = ps.any (fun p => Spec.settingOf p.1 = some ty) ∧
    s.get ty = Spec.valueIn ps ty

theorem valueIn_append (ps : List (Nat × Nat)) (p : Nat × Nat) (ty : SettingType) :
    Spec.valueIn (ps ++ [p]) ty =
      if ps.any (fun p => Spec.settingOf p.1 = some ty) then Spec.valueIn ps ty
      else if Spec.settingOf p.1 = some ty then p.2 else Spec.valueIn ps ty := by
  unfold Spec.valueIn
  rw [List.find?_append]
  cases h : ps.find? (fun p => Spec.settingOf p.1 = some ty) with
  | some y =>
    have : ps.any (fun p => Spec.settingOf p.1 = some ty) = true := by
      rw [List.any_eq_true]
      exact ⟨y, List.mem_of_find?_eq_some h, by simpa using List.find?_some h⟩
    simp [this]
  | none =>
    have : ps.any (fun p => Spec.settingOf p.1 = some ty) = false := by
      rw [List.any_eq_false]
      simpa [List.find?_eq_none] using h
    simp only [this, Option.none_or]
    by_cases hx : Spec.settingOf p.1 = some ty <;> simp [hx]

theorem says_nil : Says [] [] := by
  intro ty; cases ty <;> decide

theorem says_add {s : Settings} {ps : List (Nat × Nat)} (hs : Says s ps) (t v : Nat)
    (hr : t ∉ reservedSettings) :
    if Spec.badPair (t, v) then s.add t v = .error .httpSettings
    else ∃ s', s.add t v = .ok s' ∧ Says s' (ps ++ [(t, v)]) := by
  have hr' : decide (t ∈ [2, 3, 4, 5]) = false := by simpa [reservedSettings] using hr
  rw [add_eq]
  unfold Spec.badPair
  simp only [hr', Bool.false_or]
  cases h : Spec.settingOf t with
  | none =>
    simp only [Bool.false_eq_true, if_false]
    refine ⟨s, rfl, fun ty => ?_⟩
    have := hs ty
    rw [valueIn_append]
    simp only [List.any_append, List.any_cons, List.any_nil, h]
    refine ⟨by simp [this.1], ?_⟩
    simp [this.2]
  | some ty0 =>
    simp only
    by_cases hb : Spec.isSwitch ty0 = true ∧ v > 1
    · rw [if_pos (by simpa using hb), if_pos hb]
    · rw [if_neg (by simpa using hb), if_neg hb]
      by_cases hd : ty0 = .enableH3Datagram ∧ s.any (fun x => x.ty = .enableH3Datagram) = true
      · rw [if_pos hd]
        refine ⟨s, rfl, fun ty => ?_⟩
        have := hs ty
        rw [valueIn_append]
        simp only [List.any_append, List.any_cons, List.any_nil, h]
        obtain ⟨rfl, hd⟩ := hd
        by_cases hty : SettingType.enableH3Datagram = ty
        · subst hty
          rw [← this.1, hd]
          exact ⟨by simp, by simpa using this.2⟩
        · exact ⟨by simp [this.1, hty], by simp [this.2, hty]⟩
      · rw [if_neg hd]
        refine ⟨_, rfl, fun ty => ?_⟩
        have := hs ty
        rw [valueIn_append, get_append]
        simp only [List.any_append, List.any_cons, List.any_nil, h]
        refine ⟨by simp [this.1], ?_⟩
        rw [this.1, this.2]
        simp

theorem decodeLoop_spec : ∀ (fuel : Nat) (s : Settings) (ps0 : List (Nat × Nat)) (bs : Bytes),
    bs.length < fuel → Says s ps0 →
    match Spec.pairsLoop fuel bs with
    | some ps =>
      if ps.any Spec.badPair then s.decodeLoop fuel bs = .error .httpSettings
      else ∃ s', s.decodeLoop fuel bs = .ok s' ∧ Says s' (ps0 ++ ps)
    | none => ∃ e, s.decodeLoop fuel bs = .error e ∧ (e = .httpSettings ∨ e = .notEnoughData)
  | 0, _, _, _, h, _ => absurd h (by omega)
  | fuel + 1, s, ps0, [], _, hs => by
    simp only [Spec.pairsLoop, List.any_nil, Bool.false_eq_true, if_false, List.append_nil]
    exact ⟨s, rfl, hs⟩
  | fuel + 1, s, ps0, b :: bs, hf, hs => by
    unfold Spec.pairsLoop Settings.decodeLoop
    cases h1 : decodeVarint (b :: bs) with
    | none => exact ⟨_, rfl, Or.inr rfl⟩
    | some x =>
      obtain ⟨t, r1⟩ := x
      simp only
      cases h2 : decodeVarint r1 with
      | none =>
        simp only
        by_cases hr : t ∈ reservedSettings
        · rw [if_pos hr]; exact ⟨_, rfl, Or.inl rfl⟩
        · rw [if_neg hr]; exact ⟨_, rfl, Or.inr rfl⟩
      | some y =>
        obtain ⟨v, r2⟩ := y
        simp only
        have l1 := decodeVarint_shorter h1
        have l2 := decodeVarint_shorter h2
        by_cases hr : t ∈ reservedSettings
        · rw [if_pos hr]
          have hb : Spec.badPair (t, v) = true := by
            unfold Spec.badPair
            simp only [reservedSettings] at hr
            simp [show (t = 2 ∨ t = 3 ∨ t = 4 ∨ t = 5) by simpa using hr]
          cases Spec.pairsLoop fuel r2 with
          | none => exact ⟨_, rfl, Or.inl rfl⟩
          | some ps => simp [hb]
        · rw [if_neg hr]
          have ha := says_add hs t v hr
          by_cases hb : Spec.badPair (t, v) = true
          · rw [if_pos hb] at ha
            rw [ha]
            cases Spec.pairsLoop fuel r2 with
            | none => exact ⟨_, rfl, Or.inl rfl⟩
            | some ps => simp [hb]
          · rw [if_neg hb] at ha
            obtain ⟨s', ha, hs'⟩ := ha
            rw [ha]
            have ih := decodeLoop_spec fuel s' _ r2 (by simp at l1 hf; omega) hs'
            cases hp : Spec.pairsLoop fuel r2 with
            | none => simpa [hp] using ih
            | some ps =>
              simp only [hp] at ih
              have he : ((t, v) :: ps).any Spec.badPair = ps.any Spec.badPair := by simp [hb]
              simp only [Option.map_some, he]
              simpa using ih

theorem encodePairs_ok : ∀ (ps : List (Nat × Nat)), (∀ p ∈ ps, p.1 < 2 ^ 62 ∧ p.2 < 2 ^ 62) →
    ∃ e, encodePairs ps = some e ∧ ∀ fuel, e.length < fuel → Spec.pairsLoop fuel e = some ps
  | [], _ => ⟨[], rfl, fun fuel h => by cases fuel with
      | zero => simp at h
      | succ n => rfl⟩
  | (t, v) :: ps, h => by
    obtain ⟨a, ha, hda⟩ := encodeVarint_decode (h (t, v) (by simp)).1
    obtain ⟨b, hb, hdb⟩ := encodeVarint_decode (h (t, v) (by simp)).2
    obtain ⟨r, hr, hpr⟩ := encodePairs_ok ps (fun p hp => h p (by simp [hp]))
    simp only at ha hb
    refine ⟨a ++ b ++ r, by simp [encodePairs, ha, hb, hr], fun fuel hf => ?_⟩
    have hd := hda (b ++ r)
    have hl := decodeVarint_shorter hd
    have hl2 := decodeVarint_shorter (hdb r)
    cases fuel with
    | zero => simp at hf
    | succ n =>
      have hne : a ++ b ++ r ≠ [] := by
        intro h0
        have : (a ++ (b ++ r)).length = 0 := by rw [← List.append_assoc, h0]; rfl
        omega
      obtain ⟨x, xs, hx⟩ := List.exists_cons_of_ne_nil hne
      rw [hx]
      unfold Spec.pairsLoop
      rw [← hx, List.append_assoc, hd]
      simp only [hdb]
      rw [hpr n (by simp only [List.length_append] at hf hl hl2; omega)]
      rfl

end Neqo.H3
