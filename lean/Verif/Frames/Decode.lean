import Verif.Frames.Write

/-! Reading frames. -/
namespace Neqo.Frm
open Neqo.Codec

theorem decode_ok {b r : Bytes} {f : Frame} :
    decode b = .ok (f, r) ↔ f.Valid ∧ f.Before r ∧ ∃ w, Wire f w ∧ b = w ++ r := by
  unfold decode
  simp only [Except.bind_eq_ok]
  constructor
  · rintro ⟨⟨c, s⟩, h1, h2⟩
    simp only at h2
    split at h2
    · cases h2
    · rename_i hl
      have hl := Decidable.not_not.mp hl
      simp only [Except.bind_eq_ok] at h2
      obtain ⟨t, ht, h2⟩ := h2
      have ht := ofCode_ok.mp ht
      obtain ⟨hv, hb, l, hll, hlc, x, hx, rfl⟩ := body_iff.mp h2
      obtain ⟨e, he, rfl⟩ := dv_ok.mp h1
      refine ⟨hv, hb, e ++ x, ⟨l, hll, e, x, ?_, hx, rfl⟩, by simp⟩
      rw [hlc, ht]
      refine (shortVar_len (by rw [← ht]; exact code_small t) he).mpr ?_
      rw [hl]
      simp
  · rintro ⟨hv, hb, w, ⟨l, hl, e, x, he, hx, rfl⟩, rfl⟩
    obtain ⟨t, ht, h2⟩ := body_enc hl hv hb hx
    refine ⟨(l.1, x ++ r), by rw [List.append_assoc]; exact dv_enc he.1 _, ?_⟩
    have hs := (shortVar_len (by rw [← ht]; exact code_small t) he.1).mp he
    simp only
    rw [if_neg (by rw [hs]; simp)]
    simp only [Except.bind_eq_ok]
    exact ⟨t, ofCode_ok.mpr ht, h2⟩

theorem wire_ne {f : Frame} {w : Bytes} (h : Wire f w) : 0 < w.length := by
  obtain ⟨l, _, t, b, ht, _, rfl⟩ := h
  have := List.length_pos_iff.mpr ht.1.ne_nil
  rw [List.length_append]; omega

theorem decodeLoop_ok {pt : PType} {n : Nat} {b : Bytes} {fs : List Frame} (hn : b.length ≤ n) :
    decodeLoop pt n b = .ok fs ↔ Frames fs b ∧ ∀ f ∈ fs, f.isAllowed pt = true := by
  induction n generalizing b fs with
  | zero =>
    have hb : b = [] := List.eq_nil_of_length_eq_zero (by omega)
    subst hb
    unfold decodeLoop
    constructor
    · intro h; cases h; exact ⟨.nil, (fun f h => by cases h)⟩
    · rintro ⟨h, _⟩
      generalize he : ([] : Bytes) = b at h
      cases h with
      | nil => rfl
      | cons hw _ _ _ =>
        have := wire_ne hw
        have := congrArg List.length he
        simp only [List.length_append, List.length_nil] at this
        omega
  | succ n ih =>
    unfold decodeLoop
    by_cases hb : b = []
    · rw [if_pos hb]
      subst hb
      constructor
      · intro h; cases h; exact ⟨.nil, (fun f h => by cases h)⟩
      · rintro ⟨h, _⟩
        generalize he : ([] : Bytes) = b at h
        cases h with
        | nil => rfl
        | cons hw _ _ _ =>
          have := wire_ne hw
          have := congrArg List.length he
          simp only [List.length_append, List.length_nil] at this
          omega
    · rw [if_neg hb]
      simp only [Except.bind_eq_ok]
      constructor
      · rintro ⟨⟨f, r⟩, h1, h2⟩
        simp only at h2
        split at h2
        · cases h2
        · rename_i ha
          simp only [Except.bind_eq_ok, Except.pure_eq_ok] at h2
          obtain ⟨gs, h2, rfl⟩ := h2
          obtain ⟨hv, hbf, w, hw, rfl⟩ := decode_ok.mp h1
          have hwl := wire_ne hw
          rw [List.length_append] at hn
          obtain ⟨h3, h4⟩ := (ih (by omega)).mp h2
          refine ⟨.cons hw hv hbf h3, ?_⟩
          intro g hg
          rcases List.mem_cons.mp hg with rfl | hg
          · simpa using ha
          · exact h4 g hg
      · rintro ⟨h1, h2⟩
        cases h1 with
        | nil => exact absurd rfl hb
        | @cons f w r gs hw hv hbf h3 =>
          have hwl := wire_ne hw
          rw [List.length_append] at hn
          refine ⟨(f, r), decode_ok.mpr ⟨hv, hbf, w, hw, rfl⟩, ?_⟩
          simp only
          rw [if_neg (by simp [h2 f List.mem_cons_self])]
          simp only [Except.bind_eq_ok, Except.pure_eq_ok]
          exact ⟨gs, (ih (by omega)).mpr ⟨h3, fun g hg => h2 g (List.mem_cons_of_mem _ hg)⟩, rfl⟩

theorem frames_nil {fs : List Frame} {b : Bytes} (h : Frames fs b) : b = [] ↔ fs = [] := by
  cases h with
  | nil => simp
  | cons hw _ _ _ =>
    have := wire_ne hw
    constructor
    · intro h
      have := congrArg List.length h
      simp only [List.length_append, List.length_nil] at this
      omega
    · intro h; cases h

theorem decodePacket_ok {pt : PType} {b : Bytes} {fs : List Frame} :
    decodePacket pt b = .ok fs ↔ fs ≠ [] ∧ Frames fs b ∧ ∀ f ∈ fs, f.isAllowed pt = true := by
  unfold decodePacket
  by_cases hb : b = []
  · rw [if_pos hb]
    subst hb
    constructor
    · intro h; cases h
    · rintro ⟨h1, h2, _⟩
      exact absurd ((frames_nil h2).mp rfl) h1
  · rw [if_neg hb, decodeLoop_ok (Nat.le_refl _)]
    constructor
    · rintro ⟨h1, h2⟩
      exact ⟨fun h => hb ((frames_nil h1).mpr h), h1, h2⟩
    · rintro ⟨_, h⟩; exact h

theorem flags_from (fs : List Frame) (a b : Bool) :
    fs.foldl (fun a f => (a.1 || f.ackEliciting, a.2 && f.pathProbing)) (a, b) =
      (a || fs.any Frame.ackEliciting, b && fs.all Frame.pathProbing) := by
  induction fs generalizing a b with
  | nil => simp
  | cons f fs ih => rw [List.foldl_cons, ih]; simp [Bool.or_assoc, Bool.and_assoc]

theorem eliciting_ok (f : Frame) : f.ackEliciting = true ↔ f.Eliciting := by
  unfold Frame.Eliciting
  cases f
  case ack la ad fa rs e => cases e <;> simp [Frame.ackEliciting, Frame.layout]
  case maxStreams u m => cases u <;> simp [Frame.ackEliciting, Frame.layout]
  case streamsBlocked u m => cases u <;> simp [Frame.ackEliciting, Frame.layout]
  case stream id off dat fin fill => cases fin <;> cases fill <;> simp [Frame.ackEliciting, Frame.layout]
  case connectionClose a c t r => cases a <;> simp [Frame.ackEliciting, Frame.layout]
  case datagram dat fill => cases fill <;> simp [Frame.ackEliciting, Frame.layout]
  all_goals simp [Frame.ackEliciting, Frame.layout]

theorem probing_ok (f : Frame) : f.pathProbing = true ↔ f.Probing := by
  unfold Frame.Probing
  cases f
  case ack la ad fa rs e => cases e <;> simp [Frame.pathProbing, Frame.layout]
  case maxStreams u m => cases u <;> simp [Frame.pathProbing, Frame.layout]
  case streamsBlocked u m => cases u <;> simp [Frame.pathProbing, Frame.layout]
  case stream id off dat fin fill => cases fin <;> cases fill <;> simp [Frame.pathProbing, Frame.layout]
  case connectionClose a c t r => cases a <;> simp [Frame.pathProbing, Frame.layout]
  case datagram dat fill => cases fill <;> simp [Frame.pathProbing, Frame.layout]
  all_goals simp [Frame.pathProbing, Frame.layout]

end Neqo.Frm
