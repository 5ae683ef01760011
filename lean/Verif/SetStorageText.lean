import Verif.SetStorageLemmas
import Verif.HashLemmas
import Verif.ConditionFixtures

/-!
# The text of a conjunction of comparisons

How exprtk reads `r.a == p.a && r.b == p.b && …`.
-/

namespace Casbin
namespace SetStorage

open Exprtk HashProps DecisionProps Fixtures

/-- The comparison of a name. -/
def cmpAst (n : Str) : Ast := .bin .eq (.var (c!"r." ++ n)) (.var (c!"p." ++ n))

/-- The conjunction of such comparisons. -/
def conjAst (n : Str) (ms : List Str) : Ast := ms.foldl (fun e k => .bin .and e (cmpAst k)) (cmpAst n)

theorem conjAst_snoc (n : Str) (ms : List Str) (k : Str) :
    conjAst n (ms ++ [k]) = .bin .and (conjAst n ms) (cmpAst k) := by
  simp [conjAst]

theorem conjAst_tree (n : Str) (ms : List Str) : (conjAst n ms).tree = conjTree n ms := by
  induction ms using List.reverseRecOn with
  | nil => rfl
  | append_singleton ms k ih =>
    rw [conjAst_snoc, Ast.tree, ih]
    simp only [conjTree, List.foldl_append, List.foldl_cons, List.foldl_nil]
    rfl

/-- The words of a comparison. -/
def cmpWords (n : Str) : List Word := [.sym (c!"r." ++ n), .op .eq, .sym (c!"p." ++ n)]

theorem conjAst_words (n : Str) (ms : List Str) : ∀ p ≤ 2,
    (conjAst n ms).words p = cmpWords n ++ ms.flatMap fun k => .op .and :: cmpWords k := by
  have hc : ∀ (k : Str), ∀ q ≤ 4, (cmpAst k).words q = cmpWords k := by
    intro k q hq
    have : ¬ rank .eq < q := by simp only [rank]; omega
    simp [cmpAst, Ast.words, this, cmpWords]
  induction ms using List.reverseRecOn with
  | nil =>
    intro p hp
    rw [show conjAst n [] = cmpAst n from rfl, hc n p (by omega)]
    simp
  | append_singleton ms k ih =>
    intro p hp
    have : ¬ rank .and < p := by simp only [rank]; omega
    rw [conjAst_snoc, Ast.words, if_neg this, ih _ (by decide), hc k _ (by decide)]
    simp

theorem conjAst_depth (n : Str) (ms : List Str) : ∀ p ≤ 2, (conjAst n ms).depth p ≤ 4 := by
  have hc : ∀ (k : Str), ∀ q ≤ 4, (cmpAst k).depth q = 3 := by
    intro k q hq
    have : ¬ rank .eq < q := by simp only [rank]; omega
    simp [cmpAst, Ast.depth, this]
  induction ms using List.reverseRecOn with
  | nil =>
    intro p hp
    have := hc n p (by omega)
    show (cmpAst n).depth p ≤ 4
    omega
  | append_singleton ms k ih =>
    intro p hp
    have : ¬ rank .and < p := by simp only [rank]; omega
    rw [conjAst_snoc, Ast.depth, if_neg this, hc k _ (by decide)]
    have := ih (leftRank .and) (by decide)
    omega

theorem varName {c : Char} (hc : c.isAlpha = true) (hc' : c ≠ '.') {n : Str} (hne : n ≠ [])
    (hn : ∀ x ∈ n, wordChar x = true) : VarName (c :: '.' :: n) := by
  have hdot : '.' ∉ n := fun h => absurd (hn _ h) (by decide)
  refine ⟨?_, by simp, ?_⟩
  · have hl : ('.' :: n).getLast? = some (n.getLast hne) := by
      rw [List.getLast?_cons, List.getLast?_eq_some_getLast hne]; rfl
    simp only [Evaluator.validSymbol, hc, hl, Bool.true_and, Bool.and_eq_true]
    refine ⟨?_, ?_⟩
    · rw [List.all_eq_true]
      intro x hx
      have hx' := List.mem_of_mem_dropLast hx
      rcases List.mem_cons.mp hx' with rfl | hx'
      · decide
      · have := hn x hx'
        simp only [wordChar] at this
        simp [this]
    · exact hn _ (List.getLast_mem hne)
  · rintro ⟨u, v, h⟩
    have hcount := congrArg (List.count '.') h
    have h1 : List.count '.' n = 0 := List.count_eq_zero.mpr hdot
    simp [h1, hc'] at hcount
    omega

/-- The comparison as written. -/
def cmpText (n : Str) : Str := c!"r." ++ n ++ c!" == p." ++ n

/-- The layout with one blank between words. -/
def conjLayout (n : Str) (ms : List Str) : List (Str × Word) :=
  [([], .sym (c!"r." ++ n)), (c!" ", .op .eq), (c!" ", .sym (c!"p." ++ n))] ++
    ms.flatMap fun k => [(c!" ", .op .and), (c!" ", .sym (c!"r." ++ k)), (c!" ", .op .eq),
      (c!" ", .sym (c!"p." ++ k))]

theorem spaced_of : ∀ (l : List (Str × Word)), (∀ x ∈ l.tail, x.1 ≠ []) → Spaced l := by
  intro l
  induction l with
  | nil => intro _; trivial
  | cons x l ih =>
    intro h
    cases l with
    | nil => trivial
    | cons y l =>
      refine ⟨fun _ => h y (by simp), ih fun z hz => h z ?_⟩
      simp only [List.tail_cons] at hz ⊢
      simp [hz]

theorem conj_laysOut (n : Str) (ms : List Str) :
    LaysOut ((conjAst n ms).words 0) (conjLayout n ms) [] := by
  refine ⟨?_, ?_, by simp [Blank], spaced_of _ ?_⟩
  · rw [conjAst_words n ms 0 (by omega)]
    simp only [conjLayout, List.map_append, List.map_flatMap]
    rfl
  · intro b hb
    obtain ⟨x, hx, rfl⟩ := List.mem_map.mp hb
    simp only [conjLayout, List.mem_append, List.mem_flatMap] at hx
    have hb : x.1 = [] ∨ x.1 = c!" " := by
      rcases hx with (hx | ⟨k, -, hx⟩) <;>
        (simp at hx; rcases hx with rfl | rfl | rfl | rfl <;> simp)
    rcases hb with h | h <;> rw [h] <;> simp [Blank]
  · intro x hx
    simp only [conjLayout, List.cons_append, List.tail_cons, List.nil_append, List.mem_cons,
      List.mem_flatMap] at hx
    rcases hx with rfl | rfl | ⟨k, -, hx⟩
    · simp
    · simp
    · simp only [List.not_mem_nil, or_false] at hx
      rcases hx with rfl | rfl | rfl | rfl <;> simp

theorem layout_append (z : Str) : ∀ l l' : List (Str × Word), layout (l ++ l') z = layout l [] ++ layout l' z := by
  intro l
  induction l with
  | nil => intro l'; rfl
  | cons x l ih => intro l'; obtain ⟨b, w⟩ := x; simp [layout, ih]

theorem conj_layout (n : Str) (ms : List Str) :
    layout (conjLayout n ms) [] = c!" && ".intercalate ((n :: ms).map cmpText) := by
  have inter : ∀ (t : Str) (ts : List Str), c!" && ".intercalate (t :: ts) =
      t ++ ts.flatMap fun u => c!" && " ++ u := by
    intro t ts
    induction ts generalizing t with
    | nil => simp [List.intercalate]
    | cons u ts ih =>
      have := ih u
      simp only [List.intercalate, List.intersperse_cons_cons, List.flatten_cons, List.flatMap_cons] at this ⊢
      rw [this]
      simp
  have more : ∀ ms : List Str, layout (ms.flatMap fun k => [(c!" ", .op .and),
      (c!" ", .sym (c!"r." ++ k)), (c!" ", .op .eq), (c!" ", .sym (c!"p." ++ k))]) [] =
      (ms.map cmpText).flatMap fun u => c!" && " ++ u := by
    intro ms
    induction ms with
    | nil => rfl
    | cons k ms ih =>
      rw [List.flatMap_cons, layout_append, ih, List.map_cons, List.flatMap_cons]
      congr 1
      simp [layout, Word.text, opText, BinOp.name, cmpText]
  rw [List.map_cons, inter, conjLayout, layout_append, more]
  congr 1
  simp [layout, Word.text, opText, BinOp.name, cmpText]

/-- exprtk reads the text as the conjunction. -/
theorem parse_conj {lib : ExprLib} (hL : Faithful lib) {n : Str} {ms : List Str}
    (hn : ∀ k ∈ n :: ms, k ≠ [] ∧ ∀ x ∈ k, wordChar x = true) (hsize : ms.length < 2500) :
    lib.parse (c!" && ".intercalate ((n :: ms).map cmpText)) = some (conjTree n ms) := by
  have hcw : ∀ k ∈ n :: ms, (cmpAst k).WF := fun k hk =>
    ⟨varName (by decide) (by decide) (hn k hk).1 (hn k hk).2,
      varName (by decide) (by decide) (hn k hk).1 (hn k hk).2⟩
  have hct : ∀ k, Typed (cmpAst k) .num := fun k => .cmp (by decide) (.var _) (.var _)
  have hw : ∀ ms, (∀ k ∈ n :: ms, (cmpAst k).WF) → (conjAst n ms).WF := by
    intro ms
    induction ms using List.reverseRecOn with
    | nil => intro h; exact h n (by simp)
    | append_singleton ms k ih =>
      intro h
      rw [conjAst_snoc]
      exact ⟨ih fun x hx => h x (by
        rcases List.mem_cons.mp hx with rfl | hx
        · simp
        · simp [hx]), h k (by simp)⟩
  have ht : ∀ ms, Typed (conjAst n ms) .num := by
    intro ms
    induction ms using List.reverseRecOn with
    | nil => exact hct n
    | append_singleton ms k ih =>
      rw [conjAst_snoc]
      exact .num2 (by decide) ih (hct k)
  have hlen : ((conjAst n ms).words 0).length ≤ 10000 := by
    rw [conjAst_words n ms 0 (by omega)]
    have : ∀ ms : List Str, (ms.flatMap fun k => Word.op .and :: cmpWords k).length = 4 * ms.length := by
      intro ms
      induction ms with
      | nil => rfl
      | cons k ms ih => rw [List.flatMap_cons, List.length_append, ih]; simp [cmpWords]; omega
    rw [List.length_append, this]
    simp [cmpWords]
    omega
  rw [← conj_layout, ← conjAst_tree]
  exact hL.reads _ _ (read_written (hw ms hcw) (ht ms) (fun _ _ _ => rfl)
    (le_trans (conjAst_depth n ms 0 (by omega)) (by decide)) hlen (conj_laysOut n ms))

/-- Without a parenthesis there is no `eval`. -/
theorem noEval {s : Str} (h : '(' ∉ s) : hasEval s = false := by
  have open_ : ∀ s : Str, '(' ∉ s → afterEvalOpen s = none := by
    intro s h
    unfold afterEvalOpen
    split
    · simp at h
    · rfl
  have search : ∀ (s : Str) (b : Bool), '(' ∉ s → evalSearch b s = none := by
    intro s
    induction s with
    | nil => intro b _; rfl
    | cons c s ih =>
      intro b h
      rw [evalSearch, ih _ (fun hx => h (by simp [hx]))]
      have : evalMatchHere b (c :: s) = none := by
        unfold evalMatchHere
        split
        · rw [open_ _ h]
        · rfl
      rw [this]
      rfl
  simp [hasEval, search s true h]

/-- The text of a conjunction has none. -/
theorem conj_noEval {cs : List Str} (hn : ∀ k ∈ cs, ∀ x ∈ k, wordChar x = true) :
    hasEval (c!" && ".intercalate (cs.map cmpText)) = false := by
  refine noEval ?_
  have one : ∀ k ∈ cs, '(' ∉ cmpText k := by
    intro k hk h
    simp only [cmpText, List.mem_append] at h
    rcases h with ((h | h) | h) | h
    · revert h; decide
    · exact absurd (hn k hk _ h) (by decide)
    · revert h; decide
    · exact absurd (hn k hk _ h) (by decide)
  intro h
  simp only [List.intercalate, List.mem_flatten] at h
  obtain ⟨l, hl, hx⟩ := h
  have : ∀ (ts : List Str) (l : Str), l ∈ ts.intersperse c!" && " → l ∈ ts ∨ l = c!" && " := by
    intro ts
    induction ts with
    | nil => intro l h; simp at h
    | cons t ts ih =>
      intro l h
      cases ts with
      | nil => simp at h; simp [h]
      | cons u ts =>
        rw [List.intersperse_cons_cons] at h
        simp only [List.mem_cons] at h
        rcases h with rfl | rfl | h
        · simp
        · simp
        · rcases ih l (by simpa using h) with h' | h'
          · left; simp only [List.mem_cons] at h' ⊢; right; exact h'
          · exact .inr h'
  rcases this _ _ hl with h' | rfl
  · obtain ⟨k, hk, rfl⟩ := List.mem_map.mp h'
    exact one k hk hx
  · revert hx; decide

end SetStorage
end Casbin
