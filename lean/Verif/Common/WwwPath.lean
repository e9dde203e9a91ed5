/-!
# Files that the programs serve: C129

In tests of interoperability the servers of `neqo-bin` answer requests with files under `/www`. File names are lists of
characters here; symbolic links are not modelled.
-/
namespace Neqo.WwwPath

/-! ## The model -/

/-- `split('/')`. -/
def split : List Char → List (List Char)
  | [] => [[]]
  | c :: cs =>
    if c = '/' then [] :: split cs
    else match split cs with
      | [] => [[c]]
      | x :: xs => (c :: x) :: xs

/-- `trim_matches('/')`. -/
def trim (p : List Char) : List Char := (((p.dropWhile (· = '/')).reverse).dropWhile (· = '/')).reverse

/-- `PathBuf::push`, with which `collect` makes a path from its parts: an absolute path replaces what there is. -/
def push (base p : List Char) : List Char := if p.head? = some '/' then p else base ++ '/' :: p

/-- The file that `response_for_path` reads (neqo-bin/src/server/mod.rs:284-293) in tests of interoperability. -/
def file (path : List Char) : Option (List Char) :=
  if (split path).any (· = ['.', '.']) then none else some (push ['/', 'w', 'w', 'w'] (trim path))

/-! ## The specification -/

/-- How an operating system walks along the segments of an absolute path: empty ones and "." stay, ".." goes up. -/
def walk : List (List Char) → List (List Char) → List (List Char)
  | at_, [] => at_
  | at_, s :: l =>
    if s = [] ∨ s = ['.'] then walk at_ l else if s = ['.', '.'] then walk at_.dropLast l else walk (at_ ++ [s]) l

/-- Where an absolute path leads, from the root. -/
def leadsTo (p : List Char) : List (List Char) := walk [] (split p)

/-- The segments of a path that name something. -/
def names (p : List Char) : List (List Char) := (split p).filter fun s => !(s = [] ∨ s = ['.'])

/-! ## Lemmas -/

theorem split_ne_nil : ∀ {p : List Char}, split p ≠ []
  | [] => by simp [split]
  | c :: cs => by
    unfold split
    split
    · simp
    · split <;> simp

theorem split_append : ∀ {q r : List Char}, split (q ++ '/' :: r) = split q ++ split r
  | [], r => by
    show split ('/' :: r) = [[]] ++ split r
    rw [split, if_pos rfl]
    rfl
  | c :: q, r => by
    show split (c :: (q ++ '/' :: r)) = _
    rw [split, split, split_append]
    split
    · rfl
    · cases h : split q with
      | nil => exact absurd h split_ne_nil
      | cons x xs => rfl

theorem names_append {q r : List Char} : names (q ++ '/' :: r) = names q ++ names r := by
  unfold names
  rw [split_append, List.filter_append]

theorem names_nil : names [] = [] := by decide

theorem names_slashes : ∀ {r : List Char}, (∀ c ∈ r, c = '/') → names r = []
  | [], _ => names_nil
  | c :: r, h => by
    have : c :: r = [] ++ '/' :: r := by rw [h c (.head _)]; rfl
    rw [this, names_append, names_nil, names_slashes fun d hd => h d (.tail _ hd)]
    rfl

theorem names_start : ∀ {p : List Char}, names (p.dropWhile (· = '/')) = names p
  | [] => rfl
  | c :: p => by
    by_cases hc : c = '/'
    · rw [List.dropWhile_cons_of_pos (by simpa using hc), names_start]
      have : c :: p = [] ++ '/' :: p := by rw [hc]; rfl
      rw [this, names_append, names_nil]
      rfl
    · rw [List.dropWhile_cons_of_neg (by simpa using hc)]

theorem names_end {p r : List Char} (h : ∀ c ∈ r, c = '/') : names (p ++ r) = names p := by
  cases r with
  | nil => rw [List.append_nil]
  | cons c r =>
    rw [h c (.head _), names_append, names_slashes fun d hd => h d (.tail _ hd), List.append_nil]

theorem trim_end (x : List Char) : ∃ r, x = (x.reverse.dropWhile (· = '/')).reverse ++ r ∧ ∀ c ∈ r, c = '/' := by
  refine ⟨(x.reverse.takeWhile (· = '/')).reverse, ?_, ?_⟩
  · rw [← List.reverse_append, List.takeWhile_append_dropWhile, List.reverse_reverse]
  · intro c hc
    have := List.all_takeWhile (p := fun c : Char => decide (c = '/')) (l := x.reverse)
    rw [List.all_eq_true] at this
    simpa using this c (List.mem_reverse.mp hc)

theorem names_trim {p : List Char} : names (trim p) = names p := by
  obtain ⟨r, h1, h2⟩ := trim_end (p.dropWhile (· = '/'))
  rw [← names_start (p := p)]
  conv => rhs; rw [h1]
  rw [names_end h2]
  rfl

theorem trim_head {p : List Char} : (trim p).head? ≠ some '/' := by
  obtain ⟨r, h1, -⟩ := trim_end (p.dropWhile (· = '/'))
  intro h
  have h2 : (p.dropWhile (· = '/')).head? = some '/' := by
    rw [h1]
    unfold trim at h
    cases ht : ((p.dropWhile (· = '/')).reverse.dropWhile (· = '/')).reverse with
    | nil => rw [ht] at h; cases h
    | cons c t => rw [ht] at h; exact h
  have : ∀ {q : List Char}, (q.dropWhile (· = '/')).head? ≠ some '/' := by
    intro q
    induction q with
    | nil => simp
    | cons c q ih =>
      by_cases hc : c = '/'
      · rw [List.dropWhile_cons_of_pos (by simpa using hc)]
        exact ih
      · rw [List.dropWhile_cons_of_neg (by simpa using hc)]
        simpa using hc
  exact this h2

theorem walk_up : ∀ {l at_ : List (List Char)}, ['.', '.'] ∉ l →
    walk at_ l = at_ ++ l.filter fun s => !(s = [] ∨ s = ['.'])
  | [], at_, _ => by simp [walk]
  | s :: l, at_, h => by
    have h1 : s ≠ ['.', '.'] := fun e => h (by rw [e]; exact .head _)
    have h2 : ['.', '.'] ∉ l := fun e => h (.tail _ e)
    rw [walk]
    by_cases hs : s = [] ∨ s = ['.']
    · rw [if_pos hs, walk_up h2, List.filter_cons_of_neg (by rw [decide_eq_true hs]; decide)]
    · rw [if_neg hs, if_neg h1, walk_up h2, List.filter_cons_of_pos (by rw [decide_eq_false hs]; rfl), List.append_assoc]
      rfl

/-! ## The theorems -/

/-- Exactly the paths with a segment ".." are refused. -/
theorem C129_refused {p : List Char} : file p = none ↔ ['.', '.'] ∈ split p := by
  unfold file
  split
  · rename_i h
    simp only [List.any_eq_true, decide_eq_true_eq] at h
    obtain ⟨x, hx, rfl⟩ := h
    exact ⟨fun _ => hx, fun _ => rfl⟩
  · rename_i h
    constructor
    · intro h'
      cases h'
    · intro h'
      exact absurd (List.any_eq_true.mpr ⟨_, h', by simp⟩) h

/-- For all others the file that is read is in `/www`, and it is the one that the path names there. -/
theorem C129_inside {p f : List Char} (h : file p = some f) : leadsTo f = ['w', 'w', 'w'] :: names p := by
  have hn : ['.', '.'] ∉ split p := by
    intro hh
    rw [C129_refused.mpr hh] at h
    cases h
  have hm : ['.', '.'] ∉ split (trim p) := by
    intro hh
    apply hn
    have : ['.', '.'] ∈ names (trim p) := List.mem_filter.mpr ⟨hh, by decide⟩
    rw [names_trim] at this
    exact (List.mem_filter.mp this).1
  unfold file at h
  split at h
  · cases h
  · injection h with h
    subst h
    unfold push
    rw [if_neg trim_head]
    unfold leadsTo
    have hw : split ['/', 'w', 'w', 'w'] = [[], ['w', 'w', 'w']] := by decide
    rw [split_append, hw, walk_up]
    · rw [List.filter_append]
      show [] ++ (['w', 'w', 'w'] :: [] ++ names (trim p)) = _
      rw [names_trim]
      rfl
    · intro hh
      rcases List.mem_append.mp hh with hh | hh
      · simp at hh
      · exact hm hh

/-! ### Examples -/

example : file "//a/./b/".toList = some "/www/a/./b".toList := by decide
example : leadsTo "/www/a/./b".toList = ["www".toList, "a".toList, "b".toList] := by decide
example : file "a/../../etc/passwd".toList = none := by decide
example : file "..a/b..".toList = some "/www/..a/b..".toList := by decide

end Neqo.WwwPath
