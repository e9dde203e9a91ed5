import Verif.Assemble.Batch
import Verif.Codec.Model

/-!
# Taking a batch of datagrams apart

A batch is handed out as one buffer and the size of a datagram.  The caller, or the kernel, cuts
the buffer at multiples of that size.
-/
namespace Neqo.Asm
open Neqo.Codec (Bytes)

/-- `datagram::Batch` (neqo-common/src/datagram.rs:159-165), without addresses and the type of
service, which all its datagrams have in common. -/
structure GsoBatch where
  size : Nat
  data : Bytes
  deriving Repr, DecidableEq

/-- `slice::chunks`, for `Batch::iter` (neqo-common/src/datagram.rs:246-253). -/
def chunks (n : Nat) (d : Bytes) : List Bytes :=
  if h : d = [] ∨ n = 0 then [] else d.take n :: chunks n (d.drop n)
termination_by d.length
decreasing_by
  have : d.length ≠ 0 := by
    intro h0
    exact h (Or.inl (List.length_eq_zero_iff.mp h0))
  simp only [List.length_drop]
  omega

/-- `Batch::iter` (neqo-common/src/datagram.rs:246-253) -/
def GsoBatch.iter (b : GsoBatch) : List Bytes := chunks b.size b.data

/-- `Batch::num_datagrams` (neqo-common/src/datagram.rs:242-244); `size` is not zero. -/
def GsoBatch.num (b : GsoBatch) : Nat := (b.data.length + b.size - 1) / b.size

/-- The buffer of `output_dgram_batch_on_path` (connection/mod.rs:2678-2741, 2753-2760) with
`Path::datagram_batch` (path.rs:762-781): the bytes of the datagrams one after the other, and the
size of the first. -/
def handOut (ds : List Bytes) : Option GsoBatch :=
  match ds with
  | [] => none
  | d :: rest => if d.length = 0 then none else some ⟨d.length, (d :: rest).flatten⟩

/-! ## Proofs -/

theorem chunks_cons {n : Nat} (hn : n ≠ 0) {a b : Bytes} (ha : a.length = n) :
    chunks n (a ++ b) = a :: chunks n b := by
  rw [chunks]
  have hne : ¬ (a ++ b = [] ∨ n = 0) := by
    rintro (h | h)
    · have := congrArg List.length h
      simp only [List.length_append, List.length_nil] at this
      omega
    · exact hn h
  rw [dif_neg hne]
  simp [← ha]

theorem chunks_last {n : Nat} {a : Bytes} (ha : a ≠ []) (hl : a.length ≤ n) : chunks n a = [a] := by
  have hp : 0 < a.length := List.length_pos_iff.mpr ha
  rw [chunks, dif_neg (by
    rintro (h | h)
    · exact ha h
    · omega)]
  rw [chunks, dif_pos (Or.inl (List.drop_eq_nil_of_le hl)), List.take_of_length_le hl]

theorem chunks_segments {n : Nat} (hn : n ≠ 0) {last : Bytes} (hl : last ≠ []) (hle : last.length ≤ n) :
    ∀ (ds : List Bytes), (∀ d ∈ ds, d.length = n) → chunks n ((ds ++ [last]).flatten) = ds ++ [last]
  | [], _ => by simpa using chunks_last hl hle
  | d :: ds, h => by
    have ih := chunks_segments hn hl hle ds (fun x hx => h x (by simp [hx]))
    rw [List.cons_append, List.flatten_cons, chunks_cons hn (h d (by simp)), ih]

theorem flatten_length {n : Nat} : ∀ (ds : List Bytes), (∀ d ∈ ds, d.length = n) →
    ds.flatten.length = ds.length * n
  | [], _ => by simp
  | d :: ds, h => by
    have ih := flatten_length ds (fun x hx => h x (by simp [hx]))
    simp only [List.flatten_cons, List.length_append, List.length_cons, ih, h d (by simp), Nat.add_mul, Nat.one_mul]
    omega

theorem num_segments {n k l : Nat} (h0 : 0 < l) (hl : l ≤ n) : (k * n + l + n - 1) / n = k + 1 := by
  have hn : 0 < n := by omega
  have : k * n + l + n - 1 = (l - 1) + n * (k + 1) := by
    rw [Nat.mul_add, Nat.mul_comm n k]
    omega
  rw [this, Nat.add_mul_div_left _ _ hn, Nat.div_eq_of_lt (by omega)]
  omega

/-- Sizes as segmentation offload wants them, of the bytes themselves. -/
theorem segments_bytes {ds : List Bytes} (hs : Segments (ds.map List.length)) :
    ∃ n init last, ds = init ++ [last] ∧ (∀ d ∈ init, d.length = n) ∧ last.length ≤ n ∧
      (∀ d rest, ds = d :: rest → init ≠ [] → d.length = n) := by
  obtain ⟨n, k, l, h1, h2⟩ := hs
  have hne : ds ≠ [] := by
    intro h
    subst h
    simp at h1
  obtain ⟨init, last, rfl⟩ : ∃ init last, ds = init ++ [last] :=
    ⟨ds.dropLast, ds.getLast hne, (List.dropLast_concat_getLast hne).symm⟩
  rw [List.map_append, List.map_cons, List.map_nil] at h1
  obtain ⟨h3, h4⟩ := List.append_inj' h1 rfl
  have hall : ∀ d ∈ init, d.length = n := by
    intro d hd
    have : d.length ∈ List.replicate k n := by
      rw [← h3]
      exact List.mem_map.mpr ⟨d, hd, rfl⟩
    exact (List.mem_replicate.mp this).2
  injection h4 with h4
  refine ⟨n, init, last, rfl, hall, by omega, ?_⟩
  intro d rest hd hi
  cases init with
  | nil => exact absurd rfl hi
  | cons x xs =>
    injection hd with hx _
    subst hx
    exact hall x (by simp)

/-- C113: the datagrams that the receiver of a batch gets by cutting it are the datagrams that the
connection made, whatever their bytes, and the number it reports is their number. -/
theorem C113_split {σ : Type} {W : World σ} {mtu most : Nat} (hw : Steady W mtu most)
    (po : ∀ s, Polite (W.wr s)) {max : Nat} {s : σ} {c : Bool} {b : Batch σ}
    (e : batch W mtu most max s c = .ok (some b)) (ds : List Bytes)
    (hd : ds.map List.length = b.map fun x => x.2.2.len) :
    ∃ g, handOut ds = some g ∧ g.iter = ds ∧ g.num = ds.length := by
  have hs := C88_equal hw po e
  rw [← hd] at hs
  have hmade := (C88_first hw po e).1
  have hpos : ∀ d ∈ ds, 0 < d.length := by
    intro d hdd
    have : d.length ∈ b.map fun x => x.2.2.len := by
      rw [← hd]
      exact List.mem_map.mpr ⟨d, hdd, rfl⟩
    obtain ⟨x, hx, hxl⟩ := List.mem_map.mp this
    have := (C87_not_empty (hmade x hx)).2.2
    omega
  obtain ⟨n, init, last, rfl, h1, h2, h3⟩ := segments_bytes hs
  have hl0 : 0 < last.length := hpos last (by simp)
  have hlast : last ≠ [] := List.length_pos_iff.mp hl0
  cases init with
  | nil =>
    refine ⟨⟨last.length, last⟩, ?_, ?_, ?_⟩
    · simp only [handOut, List.nil_append]
      rw [if_neg (by omega)]
      simp
    · exact chunks_last hlast (Nat.le_refl _)
    · have := num_segments (k := 0) hl0 (Nat.le_refl last.length)
      simpa [GsoBatch.num] using this
  | cons d rest =>
    have hdn : d.length = n := h1 d (by simp)
    have hd0 : 0 < d.length := hpos d (by simp)
    refine ⟨⟨d.length, ((d :: rest) ++ [last]).flatten⟩, ?_, ?_, ?_⟩
    · simp only [handOut, List.cons_append]
      rw [if_neg (by omega)]
    · show chunks d.length _ = _
      rw [hdn]
      exact chunks_segments (by omega) hlast h2 _ h1
    · show (_ + d.length - 1) / d.length = _
      rw [hdn, List.flatten_append, List.length_append, flatten_length _ h1]
      simpa using num_segments (k := (d :: rest).length) hl0 h2

/-- C113: cut at the size of the first, no datagram is empty or larger than that size, and nothing of
the buffer is left out, whatever was put in. -/
theorem C113_whole (g : GsoBatch) (hg : g.size ≠ 0) :
    g.iter.flatten = g.data ∧ ∀ d ∈ g.iter, d ≠ [] ∧ d.length ≤ g.size := by
  obtain ⟨n, d⟩ := g
  simp only at hg
  show (chunks n d).flatten = d ∧ ∀ x ∈ chunks n d, x ≠ [] ∧ x.length ≤ n
  induction hlen : d.length using Nat.strongRecOn generalizing d with
  | _ len ih =>
    rw [chunks]
    by_cases h : d = [] ∨ n = 0
    · rw [dif_pos h]
      rcases h with h | h
      · subst h
        exact ⟨rfl, fun x hx => by cases hx⟩
      · exact absurd h hg
    · rw [dif_neg h]
      simp only [not_or] at h
      have hp : 0 < d.length := List.length_pos_iff.mpr h.1
      obtain ⟨i1, i2⟩ := ih (d.drop n).length (by simp only [List.length_drop]; omega) (d.drop n) rfl
      refine ⟨by rw [List.flatten_cons, i1, List.take_append_drop], ?_⟩
      intro x hx
      rcases List.mem_cons.mp hx with hx | hx
      · subst hx
        refine ⟨?_, by simp only [List.length_take]; omega⟩
        apply List.length_pos_iff.mp
        simp only [List.length_take]
        omega
      · exact i2 x hx

/-- Ten bytes in datagrams of four. -/
example : (⟨4, [0, 1, 2, 3, 4, 5, 6, 7, 8, 9]⟩ : GsoBatch).num = 3 ∧
    handOut [[0, 1, 2, 3], [4, 5, 6, 7], [8, 9]] = some ⟨4, [0, 1, 2, 3, 4, 5, 6, 7, 8, 9]⟩ := by decide

/-- Datagrams of other sizes would be cut at wrong places. -/
example : ∃ g, handOut [[0, 1], [2, 3, 4]] = some g ∧ g.iter ≠ [[0, 1], [2, 3, 4]] := by
  refine ⟨⟨2, [0, 1, 2, 3, 4]⟩, by decide, ?_⟩
  intro h
  have := (C113_whole ⟨2, [0, 1, 2, 3, 4]⟩ (by decide)).2 [2, 3, 4] (by rw [h]; simp)
  exact absurd this.2 (by decide)

end Neqo.Asm
