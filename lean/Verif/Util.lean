import Verif.Base
import Mathlib.Data.List.Sort
import Mathlib.Data.Char

/-! # String and array utilities (`casbin/util/*.cpp`) -/

namespace Casbin

/-- casbin/util/split.cpp 28: `#define LARGE 2147483647`. -/
def splitLARGE : Nat := 2147483647

/-- The loop of `Split` (casbin/util/split.cpp 36–43): at most `n` cuts. -/
def splitLoop (del : Str) : Nat → Str → List Str
  | 0, s => [s]
  | n + 1, s =>
    match findSub del s with
    | some pos => s.take pos :: splitLoop del n (s.drop (pos + del.length))
    | none => [s]

/-- `Split` (casbin/util/split.cpp 30–48). `limit <= 0` is `limit = 0`. -/
def split (s : Str) (del : Str) (limit : Nat := 0) : List Str :=
  splitLoop del ((if limit = 0 then splitLARGE else limit) - 1) s

/-- The default character set of the trim functions (include/casbin/util/util.h):
`"\t\n\v\f\r "`. -/
def isBlank (c : Char) : Bool :=
  c = '\t' || c = '\n' || c = Char.ofNat 11 || c = Char.ofNat 12 || c = '\r' || c = ' '

/-- `LTrim` (casbin/util/trim.cpp 26–29): erase up to `find_first_not_of`, everything when
there is none. -/
def ltrim (s : Str) : Str := s.dropWhile isBlank

/-- `RTrim` (casbin/util/trim.cpp 31–34): erase after `find_last_not_of`, everything when
there is none (`npos + 1 = 0`). -/
def rtrim (s : Str) : Str := (s.reverse.dropWhile isBlank).reverse

/-- `Trim` (casbin/util/trim.cpp 36–38). -/
def trim (s : Str) : Str := ltrim (rtrim s)

/-- The loop of `Join` after the first element. -/
def joinFrom (sep : Str) : Str → List Str → Str
  | acc, [] => acc
  | acc, v :: vs => joinFrom sep (acc ++ sep ++ v) vs

/-- `Join` (casbin/util/join.cpp 26–31); `vos[0]` of an empty vector is undefined. -/
def join (vos : List Str) (sep : Str) : Outcome Str :=
  match vos with
  | [] => .ub .outOfBounds
  | v :: vs => .ok (joinFrom sep v vs)

/-- `ArrayToString` (casbin/util/array_to_string.cpp 26–31); `substr(2)` of the empty string
throws. -/
def arrayToString (arr : List Str) : Outcome Str :=
  let res := arr.foldl (fun res it => res ++ c!", " ++ it) []
  if res.length < 2 then .throw .outOfRange else .ok (res.drop 2)

/-- `std::sort` of a vector of strings: the sorted rearrangement. -/
def sortStrs (l : List Str) : List Str := l.insertionSort (· ≤ ·)

/-- `ArrayEquals` (casbin/util/array_equals.cpp 29–37). -/
def arrayEquals (a b : List Str) : Bool :=
  if a.length ≠ b.length then false else decide (sortStrs a = sortStrs b)

/-- `ArrayRemoveDuplicates` (casbin/util/array_remove_duplicates.cpp 29–40): keep first
occurrences; `found` is the map of values already seen. -/
def dedupFrom (found : List Str) : List Str → List Str
  | [] => []
  | x :: xs => if x ∈ found then dedupFrom found xs else x :: dedupFrom (x :: found) xs

def arrayRemoveDuplicates (s : List Str) : List Str := dedupFrom [] s

/-- `SetSubtract` (casbin/util/set_subtract.cpp 29–44). -/
def setSubtract (a b : List Str) : List Str := a.filter (fun x => !decide (x ∈ b))

/-- `JoinSlice` (casbin/util/join_slice.cpp 26–33). -/
def joinSlice (a : Str) (slice : List Str) : List Str := a :: slice

/-- `EndsWith` (casbin/util/ends_with.cpp 26–30): `substr` beyond the end throws. -/
def endsWith (base suffix : Str) : Outcome Bool :=
  if base.length < suffix.length then .throw .outOfRange
  else .ok (decide (base.drop (base.length - suffix.length) = suffix))

/-- `s.find(c)` for one character. -/
def findChar (c : Char) : Str → Option Nat
  | [] => none
  | x :: xs => if x = c then some 0 else (findChar c xs).map (· + 1)

/-- `RemoveComments` (casbin/util/remove_comments.cpp 27–35). -/
def removeComments (s : Str) : Str :=
  match findChar '#' s with
  | none => s
  | some pos => trim (s.take pos)

/-- `std::count(s.begin(), s.end(), c)`. -/
def countChar (c : Char) (s : Str) : Nat := s.count c

/-! ### Lemmas -/

theorem arrayEquals_iff (a b : List Str) : arrayEquals a b = true ↔ a.Perm b := by
  unfold arrayEquals
  constructor
  · intro h
    split at h
    · exact absurd h (by simp)
    · have h' : sortStrs a = sortStrs b := by simpa using h
      have h1 := List.perm_insertionSort (· ≤ ·) a
      have h2 := List.perm_insertionSort (· ≤ ·) b
      unfold sortStrs at h'
      rw [h'] at h1
      exact h1.symm.trans h2
  · intro h
    have hl := h.length_eq
    simp only [ne_eq, hl, not_true_eq_false, if_false, decide_eq_true_eq]
    unfold sortStrs
    have h1 := List.perm_insertionSort (· ≤ ·) a
    have h2 := List.perm_insertionSort (· ≤ ·) b
    exact List.Perm.eq_of_pairwise' (List.pairwise_insertionSort _ _)
      (List.pairwise_insertionSort _ _) ((h1.trans h).trans h2.symm)

theorem mem_dedupFrom (found xs : List Str) (x : Str) :
    x ∈ dedupFrom found xs ↔ x ∈ xs ∧ x ∉ found := by
  induction xs generalizing found with
  | nil => simp [dedupFrom]
  | cons y ys ih =>
    simp only [dedupFrom]
    split
    · rename_i hy
      rw [ih]
      constructor
      · rintro ⟨h1, h2⟩; exact ⟨List.mem_cons_of_mem _ h1, h2⟩
      · rintro ⟨h1, h2⟩
        rcases List.mem_cons.mp h1 with h | h
        · subst h; exact absurd hy h2
        · exact ⟨h, h2⟩
    · rename_i hy
      simp only [List.mem_cons, ih]
      constructor
      · rintro (h | ⟨h1, h2⟩)
        · subst h; exact ⟨Or.inl rfl, hy⟩
        · exact ⟨Or.inr h1, fun h => h2 (Or.inr h)⟩
      · rintro ⟨h1, h2⟩
        by_cases hxy : x = y
        · exact Or.inl hxy
        · right
          rcases h1 with h | h
          · exact absurd h hxy
          · exact ⟨h, fun h' => h'.elim hxy h2⟩

theorem nodup_dedupFrom (found xs : List Str) : (dedupFrom found xs).Nodup := by
  induction xs generalizing found with
  | nil => simp [dedupFrom]
  | cons y ys ih =>
    simp only [dedupFrom]
    split
    · exact ih _
    · rw [List.nodup_cons]
      refine ⟨?_, ih _⟩
      rw [mem_dedupFrom]; simp

theorem mem_arrayRemoveDuplicates (xs : List Str) (x : Str) :
    x ∈ arrayRemoveDuplicates xs ↔ x ∈ xs := by
  simp [arrayRemoveDuplicates, mem_dedupFrom]

theorem nodup_arrayRemoveDuplicates (xs : List Str) : (arrayRemoveDuplicates xs).Nodup :=
  nodup_dedupFrom _ _

theorem mem_setSubtract (a b : List Str) (x : Str) :
    x ∈ setSubtract a b ↔ x ∈ a ∧ x ∉ b := by
  simp [setSubtract]

/-! ### Occurrences of a substring -/

theorem findSub_some {pat s : Str} {i : Nat} (h : findSub pat s = some i) :
    s = s.take i ++ pat ++ s.drop (i + pat.length) := by
  induction s generalizing i with
  | nil =>
    simp only [findSub] at h
    split at h
    · simp at h; subst h; simp_all
    · simp at h
  | cons c s ih =>
    simp only [findSub] at h
    split at h
    · rename_i hp
      simp at h; subst h
      obtain ⟨t, ht⟩ := List.isPrefixOf_iff_prefix.mp hp
      simp only [List.take_zero, List.nil_append, Nat.zero_add]
      rw [← ht]; simp
    · obtain ⟨j, hj, rfl⟩ := Option.map_eq_some_iff.mp h
      have := ih hj
      have e : j + 1 + pat.length = (j + pat.length) + 1 := by omega
      rw [e, List.take_succ_cons, List.drop_succ_cons, List.cons_append, List.cons_append]
      exact congrArg (c :: ·) this

theorem findSub_none {pat s : Str} : findSub pat s = none ↔ ¬ pat <:+: s := by
  induction s with
  | nil =>
    simp only [findSub]
    split <;> simp_all
  | cons c s ih =>
    simp only [findSub]
    split
    · rename_i hp
      have := (List.isPrefixOf_iff_prefix.mp hp).isInfix
      simp [this]
    · rename_i hp
      rw [Option.map_eq_none_iff, ih]
      have hp' : ¬ pat <+: (c :: s) := fun h => hp (List.isPrefixOf_iff_prefix.mpr h)
      rw [List.infix_cons_iff]
      tauto

/-- the reported occurrence is the first one -/
theorem findSub_first {pat s : Str} {i : Nat} (h : findSub pat s = some i) :
    ∀ j < i, ¬ pat <+: s.drop j := by
  induction s generalizing i with
  | nil =>
    simp only [findSub] at h
    split at h <;> simp at h
    subst h; intro j hj; omega
  | cons c s ih =>
    simp only [findSub] at h
    split at h
    · simp at h; subst h; intro j hj; omega
    · rename_i hp
      obtain ⟨k, hk, rfl⟩ := Option.map_eq_some_iff.mp h
      intro j hj
      cases j with
      | zero => intro hpre; exact hp (List.isPrefixOf_iff_prefix.mpr (by simpa using hpre))
      | succ j => simpa using ih hk j (by omega)

theorem findSub_le {pat s : Str} {i : Nat} (h : findSub pat s = some i) :
    i + pat.length ≤ s.length := by
  induction s generalizing i with
  | nil =>
    simp only [findSub] at h
    split at h <;> simp at h
    subst h; simp_all
  | cons c s ih =>
    simp only [findSub] at h
    split at h
    · rename_i hp
      simp at h; subst h
      simpa using (List.isPrefixOf_iff_prefix.mp hp).length_le
    · obtain ⟨k, hk, rfl⟩ := Option.map_eq_some_iff.mp h
      have := ih hk
      simp; omega

theorem findChar_some {c : Char} {s : Str} {i : Nat} (h : findChar c s = some i) :
    i < s.length ∧ s = s.take i ++ c :: s.drop (i + 1) ∧ c ∉ s.take i := by
  induction s generalizing i with
  | nil => simp [findChar] at h
  | cons x xs ih =>
    simp only [findChar] at h
    split at h
    · rename_i hx
      simp at h; subst h; simp [hx]
    · rename_i hx
      obtain ⟨j, hj, rfl⟩ := Option.map_eq_some_iff.mp h
      obtain ⟨h1, h2, h3⟩ := ih hj
      refine ⟨by simp; omega, ?_, ?_⟩
      · simpa using h2
      · simp only [List.take_succ_cons, List.mem_cons, not_or]
        exact ⟨fun e => hx e.symm, h3⟩

theorem findChar_none {c : Char} {s : Str} : findChar c s = none ↔ c ∉ s := by
  induction s with
  | nil => simp [findChar]
  | cons x xs ih =>
    simp only [findChar]
    split
    · rename_i hx; simp [hx]
    · rename_i hx
      rw [Option.map_eq_none_iff, ih]
      simp only [List.mem_cons, not_or]
      exact ⟨fun h => ⟨fun e => hx e.symm, h⟩, fun h => h.2⟩

theorem findChar_append_cons {c : Char} {pre post : Str} (h : c ∉ pre) :
    findChar c (pre ++ c :: post) = some pre.length := by
  induction pre with
  | nil => simp [findChar]
  | cons x xs ih =>
    simp only [List.mem_cons, not_or] at h
    simp only [List.cons_append, findChar]
    rw [if_neg (fun e => h.1 e.symm), ih h.2]
    simp

/-- The pieces `getline(stream, line, '\n')` yields until it fails (config.cpp 65–69,
file_adapter.cpp 70–73): there is no piece after a final newline. -/
def getLines : Str → List Str
  | [] => []
  | c :: s =>
    if c = '\n' then [] :: getLines s
    else
      match getLines s with
      | [] => [[c]]
      | l :: ls => (c :: l) :: ls

end Casbin
