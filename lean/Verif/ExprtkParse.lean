import Verif.ExprtkSpec

/-!
# The parser reads what the specification writes
-/

namespace Casbin
namespace Exprtk

/-- The token exprtk makes of a word. -/
def Word.tok : Word → Tok
  | .sym s => .sym s
  | .digits ds => .num (decimalValue ds)
  | .str s => .str s
  | .op o => if o ∈ wordOps then .sym o.name else .op o
  | .lpar => .lpar
  | .rpar => .rpar
  | .comma => .comma

theorem binop_op (o : BinOp) : (Word.op o).tok.binop = some o := by
  cases o <;> decide

theorem op_ne_not (o : BinOp) : (Word.op o).tok ≠ .sym c!"not" := by
  cases o <;> decide

/-! ## Levels and ranks -/

theorem level_iff (o o' : BinOp) : o'.left < o.right ↔ rank o' < rightRank o := by
  cases o <;> cases o' <;> decide

theorem level_left (o o' : BinOp) (h : leftRank o ≤ rank o') : o.left < o'.right := by
  revert h
  cases o <;> cases o' <;> decide

theorem level_mono (o o' : BinOp) (h : leftRank o ≤ rank o') : o.left ≤ o'.left := by
  revert h
  cases o <;> cases o' <;> decide

theorem left_le_right (o : BinOp) : o.left ≤ o.right := by cases o <;> decide

theorem rank_le_leftRank (o : BinOp) : rank o ≤ leftRank o := by cases o <;> decide

/-! ## The operator loop -/

/-- What may follow a written expression of rank `p`. -/
structure Next (p : Nat) (rest : List Tok) : Prop where
  noGroup : rest.head? ≠ some .lpar
  noNot : rest.head? ≠ some (.sym c!"not")
  weak : ∀ t o, rest.head? = some t → t.binop = some o → ∀ o', p ≤ rank o' → o.left < o'.right

theorem opLoop_mono {pe : Nat → List Tok → Read Parsed} {P : Nat} {res : Parsed} :
    ∀ (n m : Nat) (e : Expr) (ts : List Tok), n ≤ m → opLoop pe P n e ts = .ok res →
      opLoop pe P m e ts = .ok res := by
  intro n
  induction n with
  | zero => intro m e ts _ h; simp [opLoop] at h
  | succ n ih =>
    intro m e ts hm h
    obtain ⟨m, rfl⟩ : ∃ k, m = k + 1 := ⟨m - 1, by omega⟩
    cases ts with
    | nil => simpa [opLoop] using h
    | cons t rest =>
      simp only [opLoop] at h ⊢
      cases hb : t.binop with
      | none => simpa [hb] using h
      | some o =>
        simp only [hb] at h ⊢
        by_cases hl : o.left < P
        · simpa [hl] using h
        · simp only [hl, if_false] at h ⊢
          cases hp : pe o.right rest with
          | reject => simp [hp, Read.bind] at h
          | outside => simp [hp, Read.bind] at h
          | ok r =>
            simp only [hp, Read.bind] at h ⊢
            exact ih m _ _ (by omega) h

/-- The loop stops before a token that binds less tightly. -/
theorem opLoop_stop {pe : Nat → List Tok → Read Parsed} {P : Nat} (e : Expr) {rest : List Tok}
    (hn : rest.head? ≠ some (.sym c!"not"))
    (hw : ∀ t o, rest.head? = some t → t.binop = some o → o.left < P) :
    opLoop pe P 1 e rest = .ok (e, rest) := by
  cases rest with
  | nil => rfl
  | cons t rest =>
    simp only [opLoop]
    cases hb : t.binop with
    | none =>
      have : t ≠ .sym c!"not" := by simpa using hn
      simp only [this, if_false]
    | some o =>
      have := hw t o rfl hb
      simp [this]

/-! ## Expressions -/

/-- The parser reads the tokens of `e`, whatever follows. -/
def Good (e : Ast) : Prop :=
  ∀ (p P d : Nat) (rest : List Tok) (n : Nat) (res : Parsed), e.depth p ≤ d →
    (∀ o, p ≤ rank o → P ≤ o.left) → Next p rest → n ≤ rest.length + 1 →
    opLoop (fun q us => parseE (d - 1) q us) P n e.tree rest = .ok res →
    parseE d P ((e.words p).map Word.tok ++ rest) = .ok res

theorem next_of_plain {t : Tok} {rest : List Tok} (p : Nat) (hb : t.binop = none)
    (hg : t ≠ .lpar) (hn : t ≠ .sym c!"not") : Next p (t :: rest) :=
  ⟨by simpa using hg, by simpa using hn, by
    intro t' o ht ho
    simp only [List.head?_cons, Option.some.injEq] at ht
    subst ht
    rw [hb] at ho
    cases ho⟩

/-- Reading a whole expression before a closing token. -/
theorem Good.closed {e : Ast} (h : Good e) {d : Nat} (hd : e.depth 0 ≤ d) {t : Tok}
    {rest : List Tok} (hb : t.binop = none) (hg : t ≠ .lpar) (hn : t ≠ .sym c!"not") :
    parseE d 0 ((e.words 0).map Word.tok ++ t :: rest) = .ok (e.tree, t :: rest) := by
  have hN := next_of_plain (rest := rest) 0 hb hg hn
  refine h 0 0 d _ 1 _ hd (fun _ _ => Nat.zero_le _) hN (by simp) ?_
  refine opLoop_stop _ hN.noNot ?_
  intro t' o ht ho
  simp only [List.head?_cons, Option.some.injEq] at ht
  subst ht
  rw [hb] at ho
  cases ho

theorem readArgs_words {d : Nat} (rest : List Tok) :
    ∀ (more : List Ast) (a : Ast) (n : Nat), Good a → (∀ x ∈ more, Good x) → a.depth 0 ≤ d →
      depthMore more ≤ d → more.length < n →
      readArgs (fun us => parseE d 0 us) n
        ((a.words 0 ++ wordsMore more ++ [Word.rpar]).map Word.tok ++ rest)
        = .ok (a.tree :: trees more, rest) := by
  intro more
  induction more with
  | nil =>
    intro a n ha _ hd _ hn
    obtain ⟨n, rfl⟩ : ∃ k, n = k + 1 := ⟨n - 1, by simp at hn; omega⟩
    have h := ha.closed hd (t := .rpar) (rest := rest) rfl (by decide) (by decide)
    simp only [wordsMore, List.append_nil, List.map_append, List.map_cons, List.map_nil,
      List.append_assoc, List.cons_append, List.nil_append, readArgs, trees]
    rw [show (Word.rpar).tok = .rpar from rfl, h]
    rfl
  | cons b more ih =>
    intro a n ha hm hd hdm hn
    obtain ⟨n, rfl⟩ : ∃ k, n = k + 1 := ⟨n - 1, by simp at hn; omega⟩
    simp only [depthMore] at hdm
    have h := ha.closed hd (t := .comma)
      (rest := (b.words 0 ++ wordsMore more ++ [Word.rpar]).map Word.tok ++ rest) rfl (by decide)
      (by decide)
    have hr := ih b n (hm b (by simp)) (fun x hx => hm x (by simp [hx])) (by omega) (by omega)
      (by simp at hn; omega)
    have e : (a.words 0 ++ wordsMore (b :: more) ++ [Word.rpar]).map Word.tok ++ rest
        = (a.words 0).map Word.tok ++ .comma ::
          ((b.words 0 ++ wordsMore more ++ [Word.rpar]).map Word.tok ++ rest) := by
      simp [wordsMore, Word.tok]
    rw [e]
    simp only [readArgs]
    rw [h]
    simp only [Read.bind]
    rw [hr]
    rfl

theorem more_length (more : List Ast) : more.length ≤ (wordsMore more).length := by
  induction more with
  | nil => simp
  | cons e es ih => simp [wordsMore]; omega

theorem reserved_noDot : ∀ s ∈ reservedSymbols, '.' ∉ s := by decide

theorem lower_dot {s : Str} (h : '.' ∈ s) : lower s ∉ reservedSymbols := fun hr =>
  reserved_noDot _ hr (List.mem_map.mpr ⟨'.', h, by decide⟩)

/-- A leaf: one token, then the loop. -/
theorem good_leaf {e : Ast} {t : Tok} (hw : ∀ p, (e.words p).map Word.tok = [t])
    (hd : ∀ p, e.depth p = 2)
    (hb : ∀ pe rest, rest.head? ≠ some .lpar → branch pe (t :: rest) = .ok (e.tree, rest)) :
    Good e := by
  intro p P d rest n res hde _ hN hn h
  obtain ⟨d, rfl⟩ : ∃ k, d = k + 2 := ⟨d - 2, by rw [hd] at hde; omega⟩
  rw [hw]
  simp only [List.cons_append, List.nil_append, parseE]
  rw [hb _ _ hN.noGroup]
  simp only [Read.bind]
  exact opLoop_mono _ _ _ _ hn h

theorem good_bin {o : BinOp} {a b : Ast} (ha : Good a) (hb : Good b) : Good (.bin o a b) := by
  -- without parentheses
  have inner : ∀ (p P d : Nat) (rest : List Tok) (n : Nat) (res : Parsed), p ≤ rank o →
      max (a.depth (leftRank o)) (1 + b.depth (rightRank o)) ≤ d →
      (∀ o, p ≤ rank o → P ≤ o.left) → Next p rest → n ≤ rest.length + 1 →
      opLoop (fun q us => parseE (d - 1) q us) P n (.op o.name [a.tree, b.tree]) rest = .ok res →
      parseE d P ((a.words (leftRank o) ++ .op o :: b.words (rightRank o)).map Word.tok ++ rest)
        = .ok res := by
    intro p P d rest n res hp hd hP hN hn h
    have hr : parseE (d - 1) o.right ((b.words (rightRank o)).map Word.tok ++ rest)
        = .ok (b.tree, rest) := by
      refine hb (rightRank o) o.right (d - 1) rest 1 _ (by omega) ?_ ?_ (by omega) ?_
      · intro o' h'
        by_contra hc
        exact absurd ((level_iff o o').mp (by omega)) (by omega)
      · refine ⟨hN.noGroup, hN.noNot, ?_⟩
        intro t o1 ht ho o' h'
        have h1 := hN.weak t o1 ht ho o hp
        have h2 : ¬ o'.left < o.right := fun hc => absurd ((level_iff o o').mp hc) (by omega)
        have := left_le_right o'
        omega
      · exact opLoop_stop _ hN.noNot (fun t o1 ht ho => hN.weak t o1 ht ho o hp)
    have e : (a.words (leftRank o) ++ .op o :: b.words (rightRank o)).map Word.tok ++ rest
        = (a.words (leftRank o)).map Word.tok ++
          ((Word.op o).tok :: ((b.words (rightRank o)).map Word.tok ++ rest)) := by simp
    rw [e]
    refine ha (leftRank o) P d _ (n + 1) res (by omega) ?_ ?_ (by simp; omega) ?_
    · intro o' h'
      exact hP o' (le_trans hp (le_trans (rank_le_leftRank o) h'))
    · refine ⟨?_, ?_, ?_⟩
      · have : (Word.op o).tok ≠ .lpar := by cases o <;> decide
        simpa using this
      · simpa using op_ne_not o
      · intro t o1 ht ho o' h'
        simp only [List.head?_cons, Option.some.injEq] at ht
        subst ht
        rw [binop_op] at ho
        cases ho
        exact level_left o o' h'
    · simp only [opLoop, binop_op]
      rw [if_neg (by have := hP o hp; omega), hr]
      exact h
  intro p P d rest n res hd hP hN hn h
  by_cases hp : rank o < p
  · simp only [Ast.depth, hp, if_true] at hd
    obtain ⟨d, rfl⟩ : ∃ k, d = k + 2 := ⟨d - 2, by omega⟩
    have hin : parseE d 0 ((a.words (leftRank o) ++ .op o :: b.words (rightRank o)).map Word.tok
        ++ .rpar :: rest) = .ok (.op o.name [a.tree, b.tree], .rpar :: rest) := by
      have hN' := next_of_plain (t := .rpar) (rest := rest) 0 rfl (by decide) (by decide)
      refine inner 0 0 d _ 1 _ (Nat.zero_le _) (by omega) (fun _ _ => Nat.zero_le _) hN'
        (by simp) ?_
      refine opLoop_stop _ hN'.noNot ?_
      intro t o1 ht ho
      simp only [List.head?_cons, Option.some.injEq] at ht
      subst ht
      cases ho
    have e : ((Ast.bin o a b).words p).map Word.tok ++ rest
        = .lpar :: ((a.words (leftRank o) ++ .op o :: b.words (rightRank o)).map Word.tok
          ++ .rpar :: rest) := by
      simp [Ast.words, hp, Word.tok]
    rw [e]
    simp only [parseE, branch]
    rw [hin]
    simp only [Read.bind]
    exact opLoop_mono _ _ _ _ hn h
  · have e : (Ast.bin o a b).words p = a.words (leftRank o) ++ .op o :: b.words (rightRank o) := by
      simp [Ast.words, hp]
    rw [e]
    simp only [Ast.depth, hp, if_false, Nat.zero_add] at hd
    exact inner p P d rest n res (by omega) hd hP hN hn h

theorem good_call {f : Str} {a : Ast} {more : List Ast} (hf : FunName f) (ha : Good a)
    (hm : ∀ x ∈ more, Good x) : Good (.call f a more) := by
  intro p P d rest n res hd _ hN hn h
  simp only [Ast.depth] at hd
  obtain ⟨d, rfl⟩ : ∃ k, d = k + 2 := ⟨d - 2, by omega⟩
  have e : ((Ast.call f a more).words p).map Word.tok ++ rest
      = .sym f :: .lpar :: ((a.words 0 ++ wordsMore more ++ [Word.rpar]).map Word.tok ++ rest) := by
    simp [Ast.words, Word.tok]
  have hlen := more_length more
  have hr := readArgs_words (d := d) rest more a
    ((a.words 0 ++ wordsMore more ++ [Word.rpar]).map Word.tok ++ rest).length ha hm (by omega)
    (by omega) (by simp; omega)
  rw [e]
  simp only [parseE, branch]
  have hfree : lower f ∉ reservedSymbols := hf.free
  rw [if_neg hfree, if_neg hf.noDot, hr]
  simp only [Read.bind]
  exact opLoop_mono _ _ _ _ hn h

theorem good_group {e : Ast} (he : Good e) : Good (.group e) := by
  intro p P d rest n res hd _ hN hn h
  simp only [Ast.depth] at hd
  obtain ⟨d, rfl⟩ : ∃ k, d = k + 2 := ⟨d - 2, by omega⟩
  have hin := he.closed (d := d) (by omega) (t := .rpar) (rest := rest) rfl (by decide) (by decide)
  have e' : ((Ast.group e).words p).map Word.tok ++ rest
      = .lpar :: ((e.words 0).map Word.tok ++ .rpar :: rest) := by
    simp [Ast.words, Word.tok]
  rw [e']
  simp only [parseE, branch]
  rw [hin]
  simp only [Read.bind]
  exact opLoop_mono _ _ _ _ hn (by simpa [Ast.tree] using h)

mutual
theorem good : ∀ e : Ast, e.WF → Good e
  | .str s, _ => good_leaf (t := .str s) (by intro p; simp [Ast.words, Word.tok])
      (by intro p; simp [Ast.depth]) (by intros; rfl)
  | .num ds, _ => good_leaf (t := .num (decimalValue ds)) (by intro p; simp [Ast.words, Word.tok])
      (by intro p; simp [Ast.depth]) (by intros; rfl)
  | .var x, h => good_leaf (t := .sym x) (by intro p; simp [Ast.words, Word.tok])
      (by intro p; simp [Ast.depth]) (by
        have hx : VarName x := by simpa [Ast.WF] using h
        intro pe rest hr
        simp only [branch]
        rw [if_neg (lower_dot hx.dot)]
        split
        · simp at hr
        · rw [if_pos hx.dot]; rfl)
  | .call f a more, h => by
      simp only [Ast.WF] at h
      exact good_call h.1 (good a h.2.1) (goodAll more h.2.2)
  | .bin o a b, h => by
      simp only [Ast.WF] at h
      exact good_bin (good a h.1) (good b h.2)
  | .group e, h => by
      simp only [Ast.WF] at h
      exact good_group (good e h)
theorem goodAll : ∀ es : List Ast, allWF es → ∀ x ∈ es, Good x
  | [], _ => by simp
  | e :: es, h => by
      simp only [allWF] at h
      intro x hx
      rcases List.mem_cons.mp hx with hx | hx
      · rw [hx]; exact good e h.1
      · exact goodAll es h.2 x hx
end

/-- The parser reads the whole token sequence of an expression. -/
theorem parse_words {e : Ast} (h : e.WF) (hd : e.depth 0 ≤ 400) :
    parseE 400 0 ((e.words 0).map Word.tok) = .ok (e.tree, []) := by
  have := good e h 0 0 400 [] 1 (e.tree, []) hd (fun _ _ => Nat.zero_le _)
    ⟨by simp, by simp, by simp⟩ (by simp) rfl
  simpa using this

/-! ## Types -/

theorem opTy_cmp {o : BinOp} (h : o ∈ comparisons ++ memberships) :
    opTy o.name .str .str = .ok .num := by
  revert h
  cases o <;> decide

theorem opTy_num {o : BinOp} (h : o ∉ memberships) : opTy o.name .num .num = .ok .num := by
  revert h
  cases o <;> decide

mutual
theorem typeOf_tree : ∀ {e : Ast} {t : Ty}, Typed e t → typeOf e.tree = .ok t
  | _, _, .str _ => rfl
  | _, _, .num _ => rfl
  | _, _, .var _ => rfl
  | _, _, .call ha hm => by
      obtain ⟨ts, hts, hn⟩ := typesOf_trees hm
      simp only [Ast.tree, typeOf, typesOf]
      rw [typeOf_tree ha, hts]
      simp only [Read.bind, List.mem_cons, reduceCtorEq, hn, or_self, if_false, stringFunctions]
  | _, _, .cmp ho ha hb => by
      simp only [Ast.tree, typeOf, typesOf]
      rw [typeOf_tree ha, typeOf_tree hb]
      exact opTy_cmp ho
  | _, _, .append ha hb => by
      simp only [Ast.tree, typeOf, typesOf]
      rw [typeOf_tree ha, typeOf_tree hb]
      rfl
  | _, _, .num2 ho ha hb => by
      simp only [Ast.tree, typeOf, typesOf]
      rw [typeOf_tree ha, typeOf_tree hb]
      exact opTy_num ho
  | _, _, .group h => by
      simp only [Ast.tree]
      exact typeOf_tree h
theorem typesOf_trees : ∀ {es : List Ast}, TypedAll es → 
    ∃ ts, typesOf (trees es) = .ok ts ∧ .num ∉ ts
  | _, .nil => ⟨[], rfl, by simp⟩
  | _, .cons he hes => by
      obtain ⟨ts, hts, hn⟩ := typesOf_trees hes
      refine ⟨.str :: ts, ?_, by simpa using hn⟩
      simp only [trees, typesOf]
      rw [typeOf_tree he, hts]
      rfl
end

end Exprtk
end Casbin
