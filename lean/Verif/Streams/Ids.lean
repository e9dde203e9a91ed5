import Verif.Streams.Spec

/-! The numbering of streams. -/

namespace Neqo.Strs

variable {σ γ : Type}

theorem first_eq (t : SType) (r : Role) : first t r = bits t r := by cases t <;> cases r <;> rfl

theorem bits_lt (t : SType) (r : Role) : bits t r < 4 := by cases t <;> cases r <;> decide

theorem isBidi_nth (t : SType) (r : Role) (n : Nat) : isBidi (nth t r n) = decide (t = .bidi) := by
  unfold isBidi nth
  have e0 : (4 * n + 0) / 2 % 2 = 0 := by omega
  have e1 : (4 * n + 1) / 2 % 2 = 0 := by omega
  have e2 : (4 * n + 2) / 2 % 2 = 1 := by omega
  have e3 : (4 * n + 3) / 2 % 2 = 1 := by omega
  cases t <;> cases r <;> simp only [bits, e0, e1, e2, e3] <;> decide

theorem typeOf_nth (t : SType) (r : Role) (n : Nat) : typeOf (nth t r n) = t := by
  unfold typeOf
  rw [isBidi_nth]
  cases t <;> rfl

theorem isClient_nth (t : SType) (r : Role) (n : Nat) : isClient (nth t r n) = decide (r = .client) := by
  unfold isClient nth
  have e0 : (4 * n + 0) % 2 = 0 := by omega
  have e1 : (4 * n + 1) % 2 = 1 := by omega
  have e2 : (4 * n + 2) % 2 = 0 := by omega
  have e3 : (4 * n + 3) % 2 = 1 := by omega
  cases t <;> cases r <;> simp only [bits, e0, e1, e2, e3] <;> decide

theorem isLocal_nth (t : SType) (r r' : Role) (n : Nat) : isLocal r' (nth t r n) = decide (r = r') := by
  unfold isLocal
  rw [isClient_nth]
  cases r <;> cases r' <;> rfl

theorem isRemote_nth (t : SType) (r : Role) (n : Nat) : isRemote r (nth t r.other n) = true := by
  unfold isRemote
  rw [isLocal_nth]
  cases r <;> rfl

theorem index_nth (t : SType) (r : Role) (n : Nat) : index (nth t r n) = n := by
  have := bits_lt t r
  unfold index nth
  omega

theorem nth_inj {t : SType} {r : Role} {m n : Nat} (h : nth t r m = nth t r n) : m = n := by
  unfold nth at h
  omega

/-- Who opened a stream. -/
def opener (r : Role) (id : Nat) : Role := if isLocal r id then r else r.other

theorem nth_index (r : Role) (id : Nat) : nth (typeOf id) (opener r id) (index id) = id := by
  unfold nth opener typeOf index isLocal isClient isBidi
  have : id % 4 = 0 ∨ id % 4 = 1 ∨ id % 4 = 2 ∨ id % 4 = 3 := by omega
  rcases this with h | h | h | h
  · have h1 : id / 2 % 2 = 0 := by omega
    have h2 : id % 2 = 0 := by omega
    simp only [h1, h2]
    cases r <;> simp [bits, Role.other] <;> omega
  · have h1 : id / 2 % 2 = 0 := by omega
    have h2 : id % 2 = 1 := by omega
    simp only [h1, h2]
    cases r <;> simp [bits, Role.other] <;> omega
  · have h1 : id / 2 % 2 = 1 := by omega
    have h2 : id % 2 = 0 := by omega
    simp only [h1, h2]
    cases r <;> simp [bits, Role.other] <;> omega
  · have h1 : id / 2 % 2 = 1 := by omega
    have h2 : id % 2 = 1 := by omega
    simp only [h1, h2]
    cases r <;> simp [bits, Role.other] <;> omega

theorem nth_of_remote {r : Role} {id : Nat} (h : isRemote r id = true) : nth (typeOf id) r.other (index id) = id := by
  have := nth_index r id
  unfold opener at this
  unfold isRemote at h
  rw [if_neg (by simpa using h)] at this
  exact this

theorem nth_of_local {r : Role} {id : Nat} (h : isLocal r id = true) : nth (typeOf id) r (index id) = id := by
  have := nth_index r id
  unfold opener at this
  rw [if_pos h] at this
  exact this

theorem openedId_nth (t t' : SType) (r : Role) (n : Nat) :
    openedId t (.opened (nth t' r n)) = if t' = t then some (nth t' r n) else none := by
  have h := isBidi_nth t' r n
  unfold isBidi at h
  unfold openedId
  cases t <;> cases t' <;> simp at h ⊢ <;> omega

theorem firstIds_succ (t : SType) (r : Role) (n : Nat) : firstIds t r (n + 1) = firstIds t r n ++ [nth t r n] := by
  unfold firstIds
  rw [List.range_succ, List.map_append]
  rfl

theorem firstIds_length (t : SType) (r : Role) (n : Nat) : (firstIds t r n).length = n := by
  unfold firstIds; simp

end Neqo.Strs
