import Verif.EvalSub
import Verif.Enforce

/-!
# What `eval()` substitution means

The calls `eval(x)` of a text, described without the search loop, and the lemmas relating the
description to `evalSearch`.
-/

namespace Casbin
namespace EvalProps

/-! ## Specification -/

/-- The text `w` is a call `eval(k)`; the word is recognised in any mix of cases, and the argument
goes up to the first closing parenthesis. -/
def IsCall (w k : Str) : Prop :=
  ∃ e v a l : Char, (e = 'e' ∨ e = 'E') ∧ (v = 'v' ∨ v = 'V') ∧ (a = 'a' ∨ a = 'A') ∧
    (l = 'l' ∨ l = 'L') ∧ w = e :: v :: a :: l :: '(' :: (k ++ [')']) ∧ ')' ∉ k

/-- A character that may be part of an identifier. -/
def WordChar (c : Char) : Prop := c.isAlphanum = true ∨ c = '_'

/-- The call `w` with argument `k` stands in `s` after `a` and before `b`, and the word `eval` is
not the tail of a longer identifier. -/
def Occurs (s a w k b : Str) : Prop :=
  s = a ++ w ++ b ∧ IsCall w k ∧ ∀ c, a.getLast? = some c → ¬ WordChar c

/-- A part of a matcher. -/
inductive Piece
  | text (s : Str)
  | call (w k : Str)

/-- The parts of a text: the calls of `eval`, each the leftmost one of what follows the one before,
and the text around them. -/
inductive Cut : Str → List Piece → Prop
  | last {s : Str} : (∀ a w k b, ¬ Occurs s a w k b) → Cut s [.text s]
  | call {s a w k b : Str} {ps : List Piece} : Occurs s a w k b →
      (∀ a' w' k' b', Occurs s a' w' k' b' → a.length ≤ a'.length) → Cut b ps →
      Cut s (.text a :: .call w k :: ps)

/-- The part as it stands. -/
def Piece.source : Piece → Str
  | .text s => s
  | .call w _ => w

/-- The part with its rule text in place of a call whose argument is bound. -/
def Piece.subst (f : Str → Option Str) : Piece → Str
  | .text s => s
  | .call w k => match f k with | some v => v | none => w

/-- The arguments of the calls. -/
def Piece.key : Piece → Option Str
  | .text _ => none
  | .call _ k => some k

/-! ## The search -/

theorem wordChar_iff (c : Char) : isWordChar c = true ↔ WordChar c := by
  simp [isWordChar, WordChar]

theorem afterEvalOpen_some {s rest : Str} (h : afterEvalOpen s = some rest) :
    ∃ e v a l : Char, (e = 'e' ∨ e = 'E') ∧ (v = 'v' ∨ v = 'V') ∧ (a = 'a' ∨ a = 'A') ∧
      (l = 'l' ∨ l = 'L') ∧ s = e :: v :: a :: l :: '(' :: rest := by
  unfold afterEvalOpen at h
  split at h
  · rename_i a b c d rest'
    split at h
    · rename_i hc
      simp only [Option.some.injEq] at h
      subst h
      exact ⟨a, b, c, d, hc.1, hc.2.1, hc.2.2.1, hc.2.2.2, rfl⟩
    · simp at h
  · simp at h

theorem afterEvalOpen_cons {e v a l : Char} {rest : Str} (h1 : e = 'e' ∨ e = 'E')
    (h2 : v = 'v' ∨ v = 'V') (h3 : a = 'a' ∨ a = 'A') (h4 : l = 'l' ∨ l = 'L') :
    afterEvalOpen (e :: v :: a :: l :: '(' :: rest) = some rest := by
  simp only [afterEvalOpen]
  rw [if_pos ⟨h1, h2, h3, h4⟩]

theorem evalMatchHere_call {w k b : Str} (h : IsCall w k) :
    evalMatchHere true (w ++ b) = some { pre := [], whole := w, key := k, post := b } := by
  obtain ⟨e, v, a, l, h1, h2, h3, h4, rfl, hk⟩ := h
  have e1 : e :: v :: a :: l :: '(' :: (k ++ [')']) ++ b
      = e :: v :: a :: l :: '(' :: (k ++ ')' :: b) := by simp
  rw [e1]
  simp only [evalMatchHere, if_true, afterEvalOpen_cons h1 h2 h3 h4, findChar_append_cons hk]
  have t1 : (k ++ ')' :: b).take k.length = k := by simp
  have t2 : (k ++ ')' :: b).take (k.length + 1) = k ++ [')'] := by
    have : k ++ ')' :: b = (k ++ [')']) ++ b := by simp
    rw [this, List.take_left' (by simp)]
  have t3 : (k ++ ')' :: b).drop (k.length + 1) = b := by
    have : k ++ ')' :: b = (k ++ [')']) ++ b := by simp
    rw [this, List.drop_left' (by simp)]
  rw [t1, t2, t3]
  simp

theorem evalMatchHere_some {bd : Bool} {s : Str} {m : EvalMatch}
    (h : evalMatchHere bd s = some m) :
    bd = true ∧ m.pre = [] ∧ IsCall m.whole m.key ∧ s = m.whole ++ m.post := by
  unfold evalMatchHere at h
  cases bd with
  | false => simp at h
  | true =>
    simp only [if_true] at h
    cases ha : afterEvalOpen s with
    | none => simp [ha] at h
    | some rest =>
      cases hf : findChar ')' rest with
      | none => simp [ha, hf] at h
      | some i =>
        simp only [ha, hf, Option.some.injEq] at h
        obtain ⟨e, v, a, l, h1, h2, h3, h4, rfl⟩ := afterEvalOpen_some ha
        obtain ⟨hi, hr, hn⟩ := findChar_some hf
        have ht : rest.take (i + 1) = rest.take i ++ [')'] := by
          conv_lhs => rw [hr]
          have : rest.take i ++ ')' :: rest.drop (i + 1)
            = (rest.take i ++ [')']) ++ rest.drop (i + 1) := by simp
          rw [this, List.take_left' (by simp; omega)]
        subst h
        refine ⟨rfl, rfl, ⟨e, v, a, l, h1, h2, h3, h4, ?_, hn⟩, ?_⟩
        · simp [ht]
        · simp

/-- An occurrence in a text whose first character has (`bd = false`) or has not an identifier
character before it. -/
def OccursB (bd : Bool) (s a w k b : Str) : Prop :=
  s = a ++ w ++ b ∧ IsCall w k ∧
    match a.getLast? with
    | none => bd = true
    | some c => isWordChar c = false

theorem occursB_true {s a w k b : Str} : OccursB true s a w k b ↔ Occurs s a w k b := by
  unfold OccursB Occurs
  cases h : a.getLast? with
  | none => simp
  | some c => simp [← wordChar_iff]

theorem isCall_ne {w k : Str} (h : IsCall w k) : w ≠ [] := by
  obtain ⟨e, v, a, l, _, _, _, _, rfl, _⟩ := h
  simp

theorem occursB_cons {bd : Bool} {c : Char} {s a w k b : Str} :
    OccursB bd (c :: s) (c :: a) w k b ↔ OccursB (!isWordChar c) s a w k b := by
  unfold OccursB
  cases a with
  | nil => simp
  | cons x xs =>
    obtain ⟨z, hz⟩ : ∃ z, (x :: xs).getLast? = some z := ⟨_, List.getLast?_eq_some_getLast (by simp)⟩
    rw [List.getLast?_cons_cons, hz]
    simp

theorem evalSearch_spec (s : Str) : ∀ bd : Bool,
    match evalSearch bd s with
    | none => ∀ a w k b, ¬ OccursB bd s a w k b
    | some m => OccursB bd s m.pre m.whole m.key m.post ∧
        ∀ a w k b, OccursB bd s a w k b → m.pre.length ≤ a.length := by
  induction s with
  | nil =>
    intro bd
    simp only [evalSearch]
    rintro a w k b ⟨h, hc, _⟩
    have := isCall_ne hc
    simp_all
  | cons c s ih =>
    intro bd
    simp only [evalSearch]
    cases hh : evalMatchHere bd (c :: s) with
    | some m =>
      obtain ⟨h1, h2, h3, h4⟩ := evalMatchHere_some hh
      simp only
      refine ⟨⟨by rw [h2, h4]; simp, h3, by rw [h2]; simpa using h1⟩, ?_⟩
      intro a w k b _
      rw [h2]; simp
    | none =>
      have hno : ∀ w k b, ¬ OccursB bd (c :: s) [] w k b := by
        rintro w k b ⟨h, hc, hb⟩
        simp only [List.getLast?_nil] at hb
        subst hb
        rw [List.nil_append] at h
        rw [h, evalMatchHere_call hc] at hh
        simp at hh
      have hstep : ∀ a w k b, OccursB bd (c :: s) a w k b →
          ∃ a', a = c :: a' ∧ OccursB (!isWordChar c) s a' w k b := by
        intro a w k b ho
        cases a with
        | nil => exact absurd ho (hno w k b)
        | cons x xs =>
          have hx : x = c := by
            have := ho.1
            simp only [List.cons_append, List.cons.injEq] at this
            exact this.1.symm
          subst hx
          exact ⟨xs, rfl, occursB_cons.mp ho⟩
      have hi := ih (!isWordChar c)
      cases hs : evalSearch (!isWordChar c) s with
      | none =>
        rw [hs] at hi
        simp only [Option.map_none]
        intro a w k b ho
        obtain ⟨a', _, ho'⟩ := hstep a w k b ho
        exact hi a' w k b ho'
      | some m =>
        rw [hs] at hi
        simp only [Option.map_some]
        refine ⟨occursB_cons.mpr hi.1, ?_⟩
        intro a w k b ho
        obtain ⟨a', rfl, ho'⟩ := hstep a w k b ho
        have := hi.2 a' w k b ho'
        simpa using this

theorem isCall_unique {w w' k k' b b' : Str} (h : IsCall w k) (h' : IsCall w' k')
    (he : w ++ b = w' ++ b') : w = w' ∧ k = k' ∧ b = b' := by
  have h1 := evalMatchHere_call (b := b) h
  have h2 := evalMatchHere_call (b := b') h'
  rw [he, h2] at h1
  simp only [Option.some.injEq, EvalMatch.mk.injEq, true_and] at h1
  exact ⟨h1.1.symm, h1.2.1.symm, h1.2.2.symm⟩

theorem occurs_unique {s a w k b a' w' k' b' : Str} (h : Occurs s a w k b)
    (h' : Occurs s a' w' k' b') (hl : a.length = a'.length) :
    a = a' ∧ w = w' ∧ k = k' ∧ b = b' := by
  have he : a ++ (w ++ b) = a' ++ (w' ++ b') := by
    rw [← List.append_assoc, ← List.append_assoc, ← h.1, ← h'.1]
  obtain ⟨e1, e2⟩ := List.append_inj he hl
  obtain ⟨e3, e4, e5⟩ := isCall_unique h.2.1 h'.2.1 e2
  exact ⟨e1, e3, e4, e5⟩

theorem search_none {s : Str} (h : ∀ a w k b, ¬ Occurs s a w k b) : evalSearch true s = none := by
  have := evalSearch_spec s true
  cases hs : evalSearch true s with
  | none => rfl
  | some m =>
    rw [hs] at this
    exact absurd (occursB_true.mp this.1) (h _ _ _ _)

theorem search_some {s a w k b : Str} (h : Occurs s a w k b)
    (hm : ∀ a' w' k' b', Occurs s a' w' k' b' → a.length ≤ a'.length) :
    evalSearch true s = some { pre := a, whole := w, key := k, post := b } := by
  have := evalSearch_spec s true
  cases hs : evalSearch true s with
  | none =>
    rw [hs] at this
    exact absurd (occursB_true.mpr h) (this _ _ _ _)
  | some m =>
    rw [hs] at this
    have o := occursB_true.mp this.1
    have l1 := this.2 _ _ _ _ (occursB_true.mpr h)
    have l2 := hm _ _ _ _ o
    obtain ⟨e1, e2, e3, e4⟩ := occurs_unique o h (by omega)
    cases m
    simp_all

theorem cut_exists : ∀ (n : Nat) (s : Str), s.length < n → ∃ ps, Cut s ps := by
  intro n
  induction n with
  | zero => intro s h; omega
  | succ n ih =>
    intro s h
    have hsp := evalSearch_spec s true
    cases hs : evalSearch true s with
    | none =>
      rw [hs] at hsp
      exact ⟨_, .last fun a w k b ho => hsp a w k b (occursB_true.mpr ho)⟩
    | some m =>
      rw [hs] at hsp
      have := evalSearch_post hs
      obtain ⟨ps, hps⟩ := ih m.post (by omega)
      exact ⟨_, .call (occursB_true.mp hsp.1)
        (fun a w k b ho => hsp.2 a w k b (occursB_true.mpr ho)) hps⟩

theorem cut_source {s : Str} {ps : List Piece} (h : Cut s ps) :
    (ps.map Piece.source).flatten = s := by
  induction h with
  | last _ => simp [Piece.source]
  | call ho _ _ ih =>
    simp only [List.map_cons, List.flatten_cons, Piece.source, ih]
    rw [ho.1]; simp

theorem cut_replace {s : Str} {ps : List Piece} (sets : UMap Str Str) (h : Cut s ps) :
    replaceEval sets s = (ps.map (Piece.subst sets.get)).flatten := by
  induction h with
  | last hn =>
    rw [replaceEval_unfold, search_none hn]
    simp [Piece.subst]
  | call ho hm _ ih =>
    rw [replaceEval_unfold, search_some ho hm]
    simp only [List.map_cons, List.flatten_cons, ih, List.append_assoc]
    rfl

theorem cut_keys {s : Str} {ps : List Piece} (h : Cut s ps) :
    getEvalValue s = ps.filterMap Piece.key := by
  induction h with
  | last hn =>
    rw [getEvalValue_unfold, search_none hn]
    simp [Piece.key]
  | call ho hm _ ih =>
    rw [getEvalValue_unfold, search_some ho hm]
    simp only [ih]
    rfl

theorem cut_has {s : Str} {ps : List Piece} (h : Cut s ps) :
    hasEval s = true ↔ ∃ w k, Piece.call w k ∈ ps := by
  cases h with
  | last hn => simp [hasEval, search_none hn]
  | call ho hm _ =>
    rename_i a w k b ps _
    simp only [hasEval, search_some ho hm, Option.isSome_some, true_iff]
    exact ⟨w, k, by simp⟩

theorem cut_unique {s : Str} {ps qs : List Piece} (h : Cut s ps) (h' : Cut s qs) : ps = qs := by
  induction h generalizing qs with
  | last hn =>
    cases h' with
    | last _ => rfl
    | call ho _ _ => exact absurd ho (hn _ _ _ _)
  | call ho hm _ ih =>
    cases h' with
    | last hn => exact absurd ho (hn _ _ _ _)
    | call ho' hm' hc =>
      obtain ⟨e1, e2, e3, e4⟩ := occurs_unique ho ho'
        (Nat.le_antisymm (hm _ _ _ _ ho') (hm' _ _ _ _ ho))
      subst e1 e2 e3 e4
      rw [ih hc]

/-! ## The table -/

theorem tokenIndex_some {t : Str} : ∀ {l : List Str} {i j : Nat}, tokenIndex t l i = some j →
    i ≤ j ∧ l[j - i]? = some t := by
  intro l
  induction l with
  | nil => intro i j h; simp [tokenIndex] at h
  | cons x xs ih =>
    intro i j h
    simp only [tokenIndex] at h
    cases hx : tokenIndex t xs (i + 1) with
    | some j' =>
      rw [hx] at h
      simp only [Option.some.injEq] at h
      subst h
      obtain ⟨h1, h2⟩ := ih hx
      refine ⟨by omega, ?_⟩
      obtain ⟨d, rfl⟩ : ∃ d, j' = i + 1 + d := ⟨j' - (i + 1), by omega⟩
      rw [show i + 1 + d - i = d + 1 by omega]
      rw [show i + 1 + d - (i + 1) = d by omega] at h2
      simpa using h2
    | none =>
      rw [hx] at h
      simp only at h
      split at h
      · rename_i he
        simp only [Option.some.injEq] at h
        subst h
        simp [he]
      · simp at h

theorem tokenIndex_none {t : Str} : ∀ {l : List Str} {i : Nat}, tokenIndex t l i = none ↔ t ∉ l := by
  intro l
  induction l with
  | nil => intro i; simp [tokenIndex]
  | cons x xs ih =>
    intro i
    simp only [tokenIndex]
    cases hx : tokenIndex t xs (i + 1) with
    | some j' =>
      have : ¬ t ∉ xs := fun h => by
        rw [← ih (i := i + 1)] at h; rw [h] at hx; simp at hx
      simp only [reduceCtorEq, false_iff, List.mem_cons, not_or, not_and]
      intro _; exact this
    | none =>
      have := ih.mp hx
      simp only
      split
      · rename_i he; simp [he]
      · rename_i he
        simp only [true_iff, List.mem_cons, not_or]
        exact ⟨fun h => he h.symm, this⟩

/-- The column of the rule that an argument of `eval` names. -/
def Column (pt : List Str) (rule : Rule) (k v : Str) : Prop :=
  ∃ j : Nat, pt[j]? = some (escapeAssertion k) ∧ rule[j]? = some v

theorem column_unique {pt : List Str} (hn : pt.Nodup) {rule : Rule} {k v v' : Str}
    (h : Column pt rule k v) (h' : Column pt rule k v') : v = v' := by
  obtain ⟨i, h1, h2⟩ := h
  obtain ⟨j, h3, h4⟩ := h'
  have hij : i = j := by
    have hi : i < pt.length := (List.getElem?_eq_some_iff.mp h1).1
    rw [← h3] at h1
    exact (List.getElem?_inj hi hn).mp h1
  subst hij
  rw [h2] at h4
  exact Option.some.inj h4

theorem evalTable_ok {pt : List Str} {rule : Rule} (hl : pt.length ≤ rule.length) :
    ∀ (names : List Str) (acc : UMap Str Str),
      (∀ k v, acc.get k = some v → Column pt rule k v) →
      (∀ k ∈ names, escapeAssertion k ∈ pt) →
      ∃ T, evalTable pt rule names acc = .ok T ∧ (∀ k v, T.get k = some v → Column pt rule k v) ∧
        (∀ k, k ∈ names ∨ (acc.get k).isSome → (T.get k).isSome) := by
  intro names
  induction names with
  | nil => intro acc ha _; exact ⟨acc, rfl, ha, by simp⟩
  | cons k ks ih =>
    intro acc ha hk
    have hkp := hk k (by simp)
    cases hi : tokenIndex (escapeAssertion k) pt 0 with
    | none => exact absurd hkp (tokenIndex_none.mp hi)
    | some i =>
      have hp := (tokenIndex_some hi).2
      simp only [Nat.sub_zero] at hp
      have hlt : i < rule.length := by
        have := (List.getElem?_eq_some_iff.mp hp).1
        omega
      obtain ⟨T, h1, h2, h3⟩ := ih (acc.set k rule[i]) (by
        intro k' v' hg
        rw [UMap.get_set] at hg
        split at hg
        · rename_i he
          simp only [Option.some.injEq] at hg
          subst he
          exact ⟨i, hp, List.getElem?_eq_some_iff.mpr ⟨hlt, hg⟩⟩
        · exact ha k' v' hg) (fun k' hk' => hk k' (by simp [hk']))
      refine ⟨T, ?_, h2, ?_⟩
      · simp only [evalTable, hi, vecAt_ok hlt, Outcome.ok_bind, h1]
      · intro k' hk'
        apply h3
        rw [UMap.get_set]
        rcases hk' with hk' | hk'
        · rcases List.mem_cons.mp hk' with he | he
          · right; subst he; simp
          · left; exact he
        · right
          split
          · simp
          · exact hk'

theorem evalTable_throw {pt : List Str} {rule : Rule} (hl : pt.length ≤ rule.length) :
    ∀ (names : List Str) (acc : UMap Str Str), (∃ k ∈ names, escapeAssertion k ∉ pt) →
      evalTable pt rule names acc = .throw .enforcer := by
  intro names
  induction names with
  | nil => rintro acc ⟨k, hk, _⟩; simp at hk
  | cons k ks ih =>
    rintro acc ⟨k', hk', hn⟩
    simp only [evalTable]
    cases hi : tokenIndex (escapeAssertion k) pt 0 with
    | none => rfl
    | some i =>
      have hp := (tokenIndex_some hi).2
      simp only [Nat.sub_zero] at hp
      have hlt : i < rule.length := by
        have := (List.getElem?_eq_some_iff.mp hp).1
        omega
      simp only [vecAt_ok hlt, Outcome.ok_bind]
      apply ih
      rcases List.mem_cons.mp hk' with he | he
      · subst he
        rw [tokenIndex_none.mpr hn] at hi
        simp at hi
      · exact ⟨k', he, hn⟩

end EvalProps
end Casbin
