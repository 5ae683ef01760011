import Verif.DecisionSpec
import Verif.EffectLemmas

/-!
# The evaluator computes the specification

Helper lemmas: running the evaluator on a consistent state gives `holds`/`verdict` and leaves a
consistent state.
-/

namespace Casbin

variable [IterOrder]

/-! ### Functions and expressions -/

theorem hasLink_linked {heap : List RM} (hw : ∀ R ∈ heap, R.WF) (hp : ∀ R ∈ heap, R.pattern = none)
    {i : Nat} (hi : i < heap.length) (a b n1 n2 : Str) (d : List Str)
    (h1 : RM.qualify d a = .ok n1) (h2 : RM.qualify d b = .ok n2) :
    onHeap i (RM.hasLink a b d) heap = (.ok (linked heap (some i) n1 n2), heap) := by
  have hm : heap[i] ∈ heap := List.getElem_mem hi
  obtain ⟨r, hr, hiff⟩ := RM.hasLink_run (hw _ hm) (hp _ hm) a b n1 n2 d h1 h2
  have hg : heap[i]? = some heap[i] := List.getElem?_eq_getElem hi
  unfold onHeap linked
  simp only [hg, hr, List.set_getElem_self]
  congr 2
  classical
  rw [Bool.eq_iff_iff, hiff, decide_eq_true_eq]

theorem callFun_meaning (lib : ExprLib) {heap : List RM} (hw : ∀ R ∈ heap, R.WF)
    (hp : ∀ R ∈ heap, R.pattern = none) (fr : FunRef)
    (hptr : ∀ i n, fr = .g (some i) n → i < heap.length) (vs : List Val) :
    callFun lib fr vs heap = (fr.meaning lib heap vs, heap) := by
  cases fr with
  | builtin b =>
    unfold callFun FunRef.meaning
    have hlen : ∀ vs ss, allStrs vs = some ss → ss.length = vs.length := by
      intro vs
      induction vs with
      | nil => intro ss h; simp [allStrs] at h; simp [h]
      | cons v vs ih =>
        intro ss h
        cases v with
        | str s =>
          simp only [allStrs, Option.map_eq_some_iff] at h
          obtain ⟨ss', h1, rfl⟩ := h
          simp [ih ss' h1]
        | num n => simp [allStrs] at h
        | nan => simp [allStrs] at h
    by_cases ha : vs.length = (FunRef.builtin b).arity
    · simp only [ha, ne_eq, not_true_eq_false, if_false]
      cases hs : allStrs vs with
      | none => rfl
      | some ss => simp [hlen _ _ hs, ha]
    · simp only [ne_eq, ha, not_false_eq_true, if_true]
      cases hs : allStrs vs with
      | none => rfl
      | some ss => simp [hlen _ _ hs, ha]
  | g rm n =>
    unfold callFun FunRef.meaning
    simp only
    generalize hs : allStrs vs = os
    match os with
    | none => rfl
    | some ss =>
      match ss with
      | [] => rfl
      | [_] => rfl
      | [a, b] =>
        cases rm with
        | none =>
          simp only [linked, M.pure_run]
        | some i =>
          simp only [M.bind_run,
            hasLink_linked hw hp (hptr i n rfl) a b a b [] rfl rfl, M.pure_run]
      | [a, b, d] =>
        cases rm with
        | none =>
          simp only [linked, M.pure_run]
          congr 3
          exact decide_eq_decide.mpr (by simp [inDomain])
        | some i =>
          simp only [M.bind_run,
            hasLink_linked hw hp (hptr i n rfl) a b (inDomain d a) (inDomain d b) [d] rfl rfl,
            M.pure_run]
      | _ :: _ :: _ :: _ :: _ => rfl

mutual
theorem evalExpr_denote (lib : ExprLib) {heap : List RM} (hw : ∀ R ∈ heap, R.WF)
    (hp : ∀ R ∈ heap, R.pattern = none) {vars : UMap Str Str} {funs : UMap Str FunRef} {N : Naming}
    (hv : vars.get = N.var) (hf : funs.get = N.fn)
    (hptr : ∀ f i n, N.fn f = some (.g (some i) n) → i < heap.length) :
    ∀ e : Expr, evalExpr lib vars funs e heap = (denote lib heap N e, heap)
  | .str s => by simp [evalExpr, denote]
  | .num n => by simp [evalExpr, denote]
  | .var x => by
    simp only [evalExpr, denote, hv]
    cases N.var (lower x) <;> rfl
  | .call f args => by
    simp only [evalExpr, denote, M.bind_run, evalArgs_denote lib hw hp hv hf hptr args, hf]
    cases denoteAll lib heap N args with
    | throw e => rfl
    | ub u => rfl
    | ok vs =>
      simp only
      cases hfn : N.fn (lower f) with
      | none => rfl
      | some fr =>
        exact callFun_meaning lib hw hp fr (fun i n he => hptr (lower f) i n (by rw [hfn, he])) vs
  | .op o args => by
    simp only [evalExpr, denote, M.bind_run, evalArgs_denote lib hw hp hv hf hptr args]
    cases denoteAll lib heap N args <;> rfl
theorem evalArgs_denote (lib : ExprLib) {heap : List RM} (hw : ∀ R ∈ heap, R.WF)
    (hp : ∀ R ∈ heap, R.pattern = none) {vars : UMap Str Str} {funs : UMap Str FunRef} {N : Naming}
    (hv : vars.get = N.var) (hf : funs.get = N.fn)
    (hptr : ∀ f i n, N.fn f = some (.g (some i) n) → i < heap.length) :
    ∀ es : List Expr, evalArgs lib vars funs es heap = (denoteAll lib heap N es, heap)
  | [] => by simp [evalArgs, denoteAll]
  | e :: es => by
    simp only [evalArgs, denoteAll, M.bind_run, evalExpr_denote lib hw hp hv hf hptr e]
    cases denote lib heap N e with
    | throw e => rfl
    | ub u => rfl
    | ok v =>
      simp only [evalArgs_denote lib hw hp hv hf hptr es]
      cases denoteAll lib heap N es <;> rfl
end

omit [IterOrder] in
mutual
theorem resolves_iff {vars : UMap Str Str} {funs : UMap Str FunRef} {N : Naming}
    (hv : vars.get = N.var) (hf : funs.get = N.fn) :
    ∀ e : Expr, resolves vars funs e = true ↔ N.Knows e
  | .str s => by simp [resolves, Naming.Knows]
  | .num n => by simp [resolves, Naming.Knows]
  | .var x => by
    simp only [resolves, Naming.Knows, UMap.has, hv]
    exact Option.isSome_iff_exists
  | .call f args => by
    simp only [resolves, Naming.Knows, hf, Bool.and_eq_true, resolvesAll_iff hv hf args]
    cases N.fn (lower f) with
    | none => simp
    | some fr => simp
  | .op o args => by
    simp only [resolves, Naming.Knows, resolvesAll_iff hv hf args]
theorem resolvesAll_iff {vars : UMap Str Str} {funs : UMap Str FunRef} {N : Naming}
    (hv : vars.get = N.var) (hf : funs.get = N.fn) :
    ∀ es : List Expr, resolvesAll vars funs es = true ↔ N.KnowsAll es
  | [] => by simp [resolvesAll, Naming.KnowsAll]
  | e :: es => by
    simp only [resolvesAll, Naming.KnowsAll, Bool.and_eq_true, resolves_iff hv hf e,
      resolvesAll_iff hv hf es]
end

omit [IterOrder] in
mutual
/-- Being known depends only on which names have a value. -/
theorem Naming.knows_congr {N N' : Naming} (hf : N.fn = N'.fn)
    (hv : ∀ x, (∃ v, N.var x = some v) ↔ ∃ v, N'.var x = some v) :
    ∀ e : Expr, N.Knows e ↔ N'.Knows e
  | .str s => by simp [Naming.Knows]
  | .num n => by simp [Naming.Knows]
  | .var x => by simp only [Naming.Knows]; exact hv (lower x)
  | .call f args => by
    simp only [Naming.Knows, hf, Naming.knowsAll_congr hf hv args]
  | .op o args => by
    simp only [Naming.Knows, Naming.knowsAll_congr hf hv args]
theorem Naming.knowsAll_congr {N N' : Naming} (hf : N.fn = N'.fn)
    (hv : ∀ x, (∃ v, N.var x = some v) ↔ ∃ v, N'.var x = some v) :
    ∀ es : List Expr, N.KnowsAll es ↔ N'.KnowsAll es
  | [] => by simp [Naming.KnowsAll]
  | e :: es => by
    simp only [Naming.KnowsAll, Naming.knows_congr hf hv e, Naming.knowsAll_congr hf hv es]
end

/-! ### Tables -/

omit [IterOrder] in
theorem UMap.get_append {V : Type} (a b : UMap Str V) (k : Str) :
    UMap.get (a ++ b) k = match UMap.get a k with
      | some v => some v
      | none => UMap.get b k := by
  induction a with
  | nil => rfl
  | cons p a ih =>
    obtain ⟨k', v⟩ := p
    simp only [List.cons_append, UMap.get]
    by_cases h : k' = k
    · simp [h]
    · simp [h, ih]

omit [IterOrder] in
theorem UMap.get_map {V W : Type} (a : UMap Str V) (f : V → W) (k : Str) :
    UMap.get (a.map fun kv => (kv.1, f kv.2)) k = (UMap.get a k).map f := by
  induction a with
  | nil => rfl
  | cons p a ih =>
    obtain ⟨k', v⟩ := p
    simp only [List.map_cons, UMap.get]
    by_cases h : k' = k
    · simp [h]
    · simp [h, ih]

omit [IterOrder] in
theorem UMap.get_perm {V : Type} {a b : UMap Str V} (h : a.Perm b) (hn : a.keys.Nodup) (k : Str) :
    UMap.get a k = UMap.get b k := by
  have hk : (UMap.keys b).Perm (UMap.keys a) := (h.map _).symm
  have hnb : (UMap.keys b).Nodup := hk.nodup_iff.mpr hn
  cases ha : UMap.get a k with
  | some v => exact (UMap.get_of_mem hnb (h.mem_iff.mp (UMap.mem_of_get ha))).symm
  | none =>
    symm
    rw [UMap.get_eq_none_iff] at ha ⊢
    exact fun hm => ha (hk.mem_iff.mp hm)

/-- Put a list of values into a table. -/
def putAll (m : UMap Str Str) (kvs : List (Str × Str)) : UMap Str Str :=
  kvs.foldl (fun m kv => m.set kv.1 kv.2) m

omit [IterOrder] in
theorem get_putAll (kvs : List (Str × Str)) (hn : (UMap.keys kvs).Nodup) (m : UMap Str Str)
    (x : Str) : (putAll m kvs).get x = match UMap.get kvs x with
      | some v => some v
      | none => m.get x := by
  induction kvs generalizing m with
  | nil => rfl
  | cons p kvs ih =>
    obtain ⟨k, v⟩ := p
    simp only [UMap.keys, List.map_cons, List.nodup_cons] at hn
    have := ih hn.2 (m.set k v)
    simp only [putAll, List.foldl_cons] at this ⊢
    rw [this, UMap.get]
    by_cases h : k = x
    · subst h
      have : UMap.get kvs k = none := (UMap.get_eq_none_iff _ _).mpr hn.1
      simp [this]
    · simp [h, UMap.get_set_ne m v h]

omit [IterOrder] in
theorem mem_keys_putAll (kvs : List (Str × Str)) (m : UMap Str Str) (x : Str) :
    x ∈ (putAll m kvs).keys ↔ x ∈ UMap.keys kvs ∨ x ∈ m.keys := by
  induction kvs generalizing m with
  | nil => simp [putAll]
  | cons p kvs ih =>
    have := ih (m.set p.1 p.2)
    simp only [putAll, List.foldl_cons] at this ⊢
    rw [this, UMap.mem_keys_set]
    simp only [UMap.keys, List.map_cons, List.mem_cons]
    tauto

omit [IterOrder] in
theorem keys_zip (ks : List Str) (vs : List Str) (h : ks.length = vs.length) :
    UMap.keys (ks.zip vs) = ks := by
  unfold UMap.keys
  exact List.map_fst_zip (by omega)

/-! ### Filling the symbol table -/

omit [IterOrder] in
/-- Entering functions in order. -/
def addAllFuns (funs : UMap Str FunRef) : List (Str × FunRef) → UMap Str FunRef
  | [] => funs
  | (n, f) :: fs => addAllFuns (if funs.has (lower n) then funs else funs.set (lower n) f) fs

omit [IterOrder] in
/-- A table of functions by the lower case of their names. -/
def lowerKeys (fs : List (Str × FunRef)) : UMap Str FunRef := fs.map fun kf => (lower kf.1, kf.2)

omit [IterOrder] in
theorem addFunctions_run (fs : List (Str × FunRef)) (ev : Evaluator) :
    Evaluator.addFunctions fs ev = (.ok (), { ev with funs := addAllFuns ev.funs fs }) := by
  induction fs generalizing ev with
  | nil => rfl
  | cons p fs ih =>
    obtain ⟨n, f⟩ := p
    simp only [Evaluator.addFunctions, Evaluator.addFunction, M.bind_run, M.modify_run, ih,
      addAllFuns]
    split <;> simp

omit [IterOrder] in
theorem get_addAllFuns (fs : List (Str × FunRef)) (funs : UMap Str FunRef) (f : Str) :
    (addAllFuns funs fs).get f = match funs.get f with
      | some v => some v
      | none => UMap.get (lowerKeys fs) f := by
  induction fs generalizing funs with
  | nil => simp only [addAllFuns, lowerKeys, List.map_nil, UMap.get]; cases funs.get f <;> rfl
  | cons p fs ih =>
    obtain ⟨n', fr⟩ := p
    simp only [addAllFuns, ih, lowerKeys, List.map_cons, UMap.get]
    generalize lower n' = n
    by_cases h : funs.has n = true
    · simp only [h, if_true]
      by_cases hf : n = f
      · subst hf
        obtain ⟨v, hv⟩ := Option.isSome_iff_exists.mp h
        simp [hv]
      · simp [hf]
    · simp only [h]
      by_cases hf : n = f
      · subst hf
        have : funs.get n = none := by
          cases hn : funs.get n with
          | none => rfl
          | some v => simp [UMap.has, hn] at h
        simp [this]
      · simp [hf, UMap.get_set_ne funs fr hf]

omit [IterOrder] in
theorem find_secMap (m : Model) (sec k : Str) : m.find sec k = (m.secMap sec).get k := by
  unfold Model.find Model.secMap
  cases m.get sec <;> rfl

omit [IterOrder] in
/-- Grouping types in small letters, by the keys of the table. -/
theorem lower_find {m : Model} (h : ∀ k ∈ (m.secMap c!"g").keys, lower k = k) :
    ∀ k a, m.find c!"g" k = some a → lower k = k := by
  intro k a hk
  rw [find_secMap] at hk
  exact h k (UMap.mem_keys_of_get hk)

theorem get_gFunctions {m : Model} (hn : (m.secMap c!"g").keys.Nodup)
    (hl : ∀ k a, m.find c!"g" k = some a → lower k = k) (f : Str) :
    UMap.get (lowerKeys (gFunctions m)) f =
      (m.find c!"g" f).map fun a => FunRef.g a.rm (countChar '_' a.value) := by
  have he : lowerKeys (gFunctions m) = gFunctions m := by
    unfold lowerKeys
    conv_rhs => rw [← List.map_id (gFunctions m)]
    refine List.map_congr_left fun kf hkf => ?_
    obtain ⟨ka, hka, rfl⟩ := List.mem_map.mp hkf
    have hm : ka ∈ m.secMap c!"g" := (IterOrder.iter_perm _).mem_iff.mp hka
    have := hl ka.1 ka.2 (by rw [find_secMap]; exact UMap.get_of_mem hn hm)
    simp [this]
  rw [he]
  unfold gFunctions
  rw [UMap.get_map _ (fun a : Assertion => FunRef.g a.rm (countChar '_' a.value)), find_secMap]
  congr 1
  exact (UMap.get_perm (IterOrder.iter_perm _).symm hn f).symm

/-- After loading, the functions are those of the model. -/
theorem get_loaded {m : Model} (hn : (m.secMap c!"g").keys.Nodup)
    (hl : ∀ k a, m.find c!"g" k = some a → lower k = k) (funs : UMap Str FunRef)
    (h : ∀ f fr, funs.get f = some fr → functions m f = some fr) :
    (addAllFuns (addAllFuns funs Evaluator.builtins) (gFunctions m)).get = functions m := by
  funext f
  rw [get_addAllFuns, get_addAllFuns, get_gFunctions hn hl]
  cases hf : funs.get f with
  | some fr => exact (h f fr hf).symm
  | none =>
    unfold functions
    change (match (match none with
      | some v => some v
      | none => UMap.get (lowerKeys Evaluator.builtins) f) with
      | some v => some v
      | none => _) = (match UMap.get (lowerKeys Evaluator.builtins) f with
      | some fr => some fr
      | none => _)
    cases UMap.get (lowerKeys Evaluator.builtins) f <;> rfl

/-! ### Names and case -/

omit [IterOrder] in
theorem toLower_cases (c : Char) : c.toLower = c ∨
    (c.isAlpha = true ∧ c.toLower.isAlpha = true ∧ c ≠ '_' ∧ c ≠ '.' ∧
      c.toLower ≠ '_' ∧ c.toLower ≠ '.') := by
  by_cases h : c.isUpper = true
  · right
    have h1 : 65 ≤ c.toNat ∧ c.toNat ≤ 90 := by
      simp only [Char.isUpper, decide_eq_true_eq, UInt32.le_iff_toNat_le] at h
      exact h
    have h2 : c = Char.ofNat c.toNat := (Char.ofNat_toNat c).symm
    obtain ⟨ha, hb⟩ := h1
    generalize c.toNat = n at *
    subst h2
    have : n ∈ List.range' 65 26 := by rw [List.mem_range'_1]; omega
    revert this
    clear h ha hb
    revert n
    decide
  · left
    simp only [Char.isUpper, decide_eq_true_eq] at h
    unfold Char.toLower
    split
    · rename_i hc; exact absurd hc h
    · rfl

omit [IterOrder] in
theorem validSymbol_lower (x : Str) :
    Evaluator.validSymbol (lower x) = Evaluator.validSymbol x := by
  have ha : ∀ c : Char, c.toLower.isAlpha = c.isAlpha := fun c => by
    rcases toLower_cases c with h | h
    · rw [h]
    · rw [h.1, h.2.1]
  have hn : ∀ c : Char, c.toLower.isAlphanum = c.isAlphanum := fun c => by
    rcases toLower_cases c with h | h
    · rw [h]
    · simp [Char.isAlphanum, h.1, h.2.1]
  have hd : ∀ d : Char, (d = '_' ∨ d = '.') → ∀ c : Char, (c.toLower == d) = (c == d) := by
    intro d hd c
    rcases toLower_cases c with h | ⟨_, _, h1, h2, h3, h4⟩
    · rw [h]
    · rcases hd with rfl | rfl
      · simp [h1, h3]
      · simp [h2, h4]
  cases x with
  | nil => rfl
  | cons c s =>
    simp only [lower, List.map_cons, Evaluator.validSymbol, ha, ← List.map_dropLast, List.all_map,
      List.getLast?_map, Function.comp_def, hn, hd '_' (.inl rfl), hd '.' (.inr rfl)]
    cases s.getLast? with
    | none => rfl
    | some c => simp only [Option.map_some, hn, hd '_' (.inl rfl)]

omit [IterOrder] in
theorem lower_append (a b : Str) : lower (a ++ b) = lower a ++ lower b := by simp [lower]

/-- The symbol table after a name was entered. -/
def Evaluator.enter (ev : Evaluator) (x v : Str) : Evaluator :=
  { ev with
    vars := ev.vars.set (lower x) v
    names := if ev.vars.has (lower x) then ev.names else ev.names ++ [x] }

omit [IterOrder] in
theorem addIdentifier_run {x : Str} (h : Evaluator.validSymbol x = true) (v : Str)
    (ev : Evaluator) : Evaluator.addIdentifier x v ev = (.ok (), ev.enter x v) := by
  unfold Evaluator.addIdentifier Evaluator.enter
  by_cases hx : ev.vars.has (lower x) = true <;> simp [hx, h]

/-- The symbol table after a list of names was entered. -/
def Evaluator.enterAll (ev : Evaluator) (kvs : List (Str × Str)) : Evaluator :=
  kvs.foldl (fun ev kv => ev.enter kv.1 kv.2) ev

namespace Evaluator

omit [IterOrder] in
@[simp] theorem enterAll_funs (kvs : List (Str × Str)) (ev : Evaluator) :
    (ev.enterAll kvs).funs = ev.funs := by
  induction kvs generalizing ev with
  | nil => rfl
  | cons kv kvs ih => exact ih _

omit [IterOrder] in
@[simp] theorem enterAll_exprStr (kvs : List (Str × Str)) (ev : Evaluator) :
    (ev.enterAll kvs).exprStr = ev.exprStr := by
  induction kvs generalizing ev with
  | nil => rfl
  | cons kv kvs ih => exact ih _

omit [IterOrder] in
@[simp] theorem enterAll_compiled (kvs : List (Str × Str)) (ev : Evaluator) :
    (ev.enterAll kvs).compiled = ev.compiled := by
  induction kvs generalizing ev with
  | nil => rfl
  | cons kv kvs ih => exact ih _

omit [IterOrder] in
@[simp] theorem enterAll_err (kvs : List (Str × Str)) (ev : Evaluator) :
    (ev.enterAll kvs).err = ev.err := by
  induction kvs generalizing ev with
  | nil => rfl
  | cons kv kvs ih => exact ih _

omit [IterOrder] in
theorem enterAll_vars (kvs : List (Str × Str)) (ev : Evaluator) :
    (ev.enterAll kvs).vars = putAll ev.vars (kvs.map fun kv => (lower kv.1, kv.2)) := by
  induction kvs generalizing ev with
  | nil => rfl
  | cons kv kvs ih => exact ih _

omit [IterOrder] in
theorem enterAll_zip (raw : Str → Str) (ts vals : List Str) (ev : Evaluator) :
    (ev.enterAll ((ts.map raw).zip vals)).vars =
      putAll ev.vars ((ts.map fun t => lower (raw t)).zip vals) := by
  rw [enterAll_vars]
  congr 1
  induction ts generalizing vals with
  | nil => rfl
  | cons t ts ih =>
    cases vals with
    | nil => rfl
    | cons v vals => simp [ih]

end Evaluator

omit [IterOrder] in
theorem NamesOK.enterAll {r p : Assertion} (kvs : List (Str × Str)) {ev : Evaluator}
    (h : NamesOK r p ev) (hk : ∀ kv ∈ kvs, kv.1 ∈ rawNames r p) : NamesOK r p (ev.enterAll kvs) := by
  induction kvs generalizing ev with
  | nil => exact h
  | cons kv kvs ih =>
    refine ih ⟨?_, ?_⟩ (fun x hx => hk x (by simp [hx]))
    · intro x hx
      simp only [Evaluator.enter] at hx
      split at hx
      · exact h.known x hx
      · rcases List.mem_append.mp hx with hx | hx
        · exact h.known x hx
        · rw [List.mem_singleton.mp hx]; exact hk kv (by simp)
    · intro x hx
      simp only [Evaluator.enter, UMap.mem_keys_set] at hx ⊢
      rcases hx with hx | hx
      · subst hx
        split
        · rename_i hh
          exact h.entered _ ((UMap.has_iff _ _).mp hh)
        · exact ⟨kv.1, by simp, rfl⟩
      · obtain ⟨y, hy, he⟩ := h.entered x hx
        refine ⟨y, ?_, he⟩
        split
        · exact hy
        · simp [hy]

omit [IterOrder] in
theorem NamesOK.congr {r p : Assertion} {ev ev' : Evaluator} (h : NamesOK r p ev)
    (hv : ev'.vars = ev.vars) (hn : ev'.names = ev.names) : NamesOK r p ev' :=
  ⟨by rw [hn]; exact h.known, by rw [hn, hv]; exact h.entered⟩

omit [IterOrder] in
theorem TextOK.enterAll {lib : ExprLib} {m : Model} {r p : Assertion} {ev : Evaluator}
    (h : TextOK lib m r p ev) (kvs : List (Str × Str)) : TextOK lib m r p (ev.enterAll kvs) :=
  ⟨by simpa using h.bad, by simpa using h.good⟩

omit [IterOrder] in
theorem mem_rawNames_req {r p : Assertion} {vals : List Str} {kv : Str × Str}
    (h : kv ∈ (r.tokens.map reqRaw).zip vals) : kv.1 ∈ rawNames r p := by
  have := (List.of_mem_zip h).1
  simp only [rawNames, List.mem_append]
  exact .inl this

omit [IterOrder] in
theorem mem_rawNames_pol {r p : Assertion} {vals : List Str} {kv : Str × Str}
    (h : kv ∈ (p.tokens.map polRaw).zip vals) : kv.1 ∈ rawNames r p := by
  have := (List.of_mem_zip h).1
  simp only [rawNames, List.mem_append]
  exact .inr this

omit [IterOrder] in
theorem pushRequest_run {ts : List Str} (hlen : ∀ t ∈ ts, 2 ≤ t.length)
    (hval : ∀ t ∈ ts, Evaluator.validSymbol (reqName t) = true) (vals : List Str) (ev : Evaluator)
    (h : ts.length = vals.length) :
    pushRequest ts (vals.map ReqVal.str) ev = (.ok (), ev.enterAll ((ts.map reqRaw).zip vals)) := by
  induction ts generalizing vals ev with
  | nil => cases vals <;> simp_all [pushRequest, Evaluator.enterAll]
  | cons t ts ih =>
    cases vals with
    | nil => simp at h
    | cons v vals =>
      have h1 : ¬ t.length < 2 := by have := hlen t (by simp); omega
      have h2 : Evaluator.pushString c!"r" (t.drop 2) v ev = (.ok (), ev.enter (reqRaw t) v) :=
        addIdentifier_run (by rw [← validSymbol_lower]; exact hval t (by simp)) v ev
      simp only [List.map_cons, pushRequest, h1, if_false, M.bind_run, h2]
      rw [ih (fun t ht => hlen t (by simp [ht])) (fun t ht => hval t (by simp [ht])) vals _
        (by simpa using h)]
      simp [Evaluator.enterAll]

omit [IterOrder] in
theorem pushPolicy_run {ts : List Str} (hval : ∀ t ∈ ts, Evaluator.validSymbol (polName t) = true)
    (vals : List Str) (ev : Evaluator) (h : ts.length = vals.length) :
    pushPolicy ts vals ev = (.ok (), ev.enterAll ((ts.map polRaw).zip vals)) := by
  induction ts generalizing vals ev with
  | nil => cases vals <;> simp_all [pushPolicy, Evaluator.enterAll]
  | cons t ts ih =>
    cases vals with
    | nil => simp at h
    | cons v vals =>
      have h2 : Evaluator.pushString c!"p" (tokenName t) v ev = (.ok (), ev.enter (polRaw t) v) :=
        addIdentifier_run (by rw [← validSymbol_lower]; exact hval t (by simp)) v ev
      simp only [pushPolicy, M.bind_run, h2]
      rw [ih (fun t ht => hval t (by simp [ht])) vals _ (by simpa using h)]
      simp [Evaluator.enterAll]

omit [IterOrder] in
theorem reqName_ne_polName (t u : Str) : reqName t ≠ polName u := by
  intro h
  have h1 : (reqName t).head? = some 'r' := rfl
  have h2 : (polName u).head? = some 'p' := rfl
  rw [h, h2] at h1
  exact absurd h1 (by decide)

omit [IterOrder] in
theorem zip_keys_nodup {ns : List Str} (h : ns.Nodup) (vals : List Str) (hl : ns.length = vals.length) :
    (UMap.keys (ns.zip vals)).Nodup := by rw [keys_zip _ _ hl]; exact h

omit [IterOrder] in
/-- The bindings of a request and a rule are a full naming. -/
theorem fullNaming_naming {m : Model} {r p : Assertion} {vals : List Str} {rule : Rule}
    (h1 : r.tokens.length = vals.length) (h2 : p.tokens.length = rule.length) :
    FullNaming m r p (naming m r.tokens p.tokens vals rule) := by
  refine ⟨rfl, fun x => ?_⟩
  simp only [naming]
  rw [← Option.isSome_iff_exists, UMap.get_isSome_iff]
  have : UMap.keys (bindings r.tokens p.tokens vals rule) = stdNames r p := by
    unfold bindings stdNames
    have := keys_zip (r.tokens.map reqName) vals (by simpa using h1)
    have := keys_zip (p.tokens.map polName) rule (by simpa using h2)
    simp_all [UMap.keys]
  rw [this]

/-! ### One evaluation -/

/-- The state during a request, before a rule is looked at. -/
structure Live (lib : ExprLib) (m : Model) (r p : Assertion) (heap : List RM) (X : Rule)
    (vals : List Str) (s : ReqSt) : Prop where
  heap : s.heap = heap
  explain : s.explain = X
  funs : s.ev.funs.get = functions m
  rvars : ∀ x v, UMap.get ((r.tokens.map reqName).zip vals) x = some v → s.ev.vars.get x = some v
  vars : ∀ x ∈ s.ev.vars.keys, x ∈ stdNames r p
  names : NamesOK r p s.ev
  text : TextOK lib m r p s.ev

omit [IterOrder] in
/-- The symbol table after pushing a rule is the bindings. -/
theorem vars_after_push {m : Model} {r p : Assertion} (hW : WellDefined m r p)
    {vals : List Str} {rule : Rule} (h1 : r.tokens.length = vals.length)
    (h2 : p.tokens.length = rule.length) {vars : UMap Str Str}
    (hr : ∀ x v, UMap.get ((r.tokens.map reqName).zip vals) x = some v → vars.get x = some v)
    (hs : ∀ x ∈ vars.keys, x ∈ stdNames r p) :
    (putAll vars ((p.tokens.map polName).zip rule)).get
      = (bindings r.tokens p.tokens vals rule).get := by
  funext x
  have hkr : UMap.keys ((r.tokens.map reqName).zip vals) = r.tokens.map reqName :=
    keys_zip _ _ (by simpa using h1)
  have hkp : UMap.keys ((p.tokens.map polName).zip rule) = p.tokens.map polName :=
    keys_zip _ _ (by simpa using h2)
  rw [get_putAll _ (by rw [hkp]; exact hW.pNodup), bindings, UMap.get_append]
  cases hp : UMap.get ((p.tokens.map polName).zip rule) x with
  | some v =>
    have hx : x ∈ p.tokens.map polName := by rw [← hkp]; exact UMap.mem_keys_of_get hp
    have : UMap.get ((r.tokens.map reqName).zip vals) x = none := by
      rw [UMap.get_eq_none_iff, hkr]
      intro hr'
      obtain ⟨t, _, rfl⟩ := List.mem_map.mp hr'
      obtain ⟨u, _, hu⟩ := List.mem_map.mp hx
      exact reqName_ne_polName t u hu.symm
    rw [this]
  | none =>
    cases hrx : UMap.get ((r.tokens.map reqName).zip vals) x with
    | some v => exact hr x v hrx
    | none =>
      simp only
      rw [UMap.get_eq_none_iff] at hp hrx ⊢
      intro hx
      have := hs x hx
      rw [hkp] at hp
      rw [hkr] at hrx
      simp only [stdNames, List.mem_append] at this
      rcases this with h | h
      · exact hrx h
      · exact hp h

omit [IterOrder] in
/-- `Eval` leaves a table and a text that agree. -/
theorem eval_run (lib : ExprLib) {m : Model} {r p : Assertion} {ev : Evaluator} {N : Naming}
    (hN : FullNaming m r p N) (hv : ev.vars.get = N.var) (hf : ev.funs.get = N.fn)
    (ht : TextOK lib m r p ev) {text : Str} (hne : text ≠ []) :
    ∃ b ev', Evaluator.eval lib text ev = (.ok b, ev') ∧ ev'.vars = ev.vars ∧ ev'.funs = ev.funs ∧
      ev'.names = ev.names ∧ TextOK lib m r p ev' ∧ ev'.exprStr = text ∧ b = !ev'.err := by
  have hcongr : ∀ N', FullNaming m r p N' → ∀ e, N'.Knows e ↔ N.Knows e := by
    intro N' hN' e
    exact Naming.knows_congr (hN'.1.trans hN.1.symm) (fun x => (hN'.2 x).trans (hN.2 x).symm) e
  unfold Evaluator.eval
  by_cases hs : ev.exprStr = text
  · refine ⟨!ev.err, ev, by simp [hs], rfl, rfl, rfl, ht, hs, rfl⟩
  · simp only [ne_eq, hs, not_false_eq_true, if_true]
    unfold compile
    simp only [hne, if_false]
    cases hp : lib.parse text with
    | none =>
      refine ⟨false, _, rfl, rfl, rfl, rfl, ⟨?_, ?_⟩, rfl, rfl⟩
      · intro _ _ e he; simp [hp] at he
      · intro _ he; simp at he
    | some e =>
      by_cases hr : resolves ev.vars ev.funs e = true
      · simp only [hr, if_true]
        refine ⟨true, _, rfl, rfl, rfl, rfl, ⟨?_, ?_⟩, rfl, rfl⟩
        · intro _ he; simp at he
        · intro _ _
          exact ⟨e, hp, rfl, fun N' hN' => (hcongr N' hN' e).mpr ((resolves_iff hv hf e).mp hr)⟩
      · simp only [hr]
        refine ⟨false, _, rfl, rfl, rfl, rfl, ⟨?_, ?_⟩, rfl, rfl⟩
        · intro _ _ e' he' N' hN' hk
          simp only [hp, Option.some.injEq] at he'
          subst he'
          exact hr ((resolves_iff hv hf e).mpr ((hcongr N' hN' e).mp hk))
        · intro _ he; simp at he

omit [IterOrder] in
theorem holds_err (lib : ExprLib) (heap : List RM) {m : Model} {r p : Assertion} {ev : Evaluator}
    {N : Naming} (hN : FullNaming m r p N) (ht : TextOK lib m r p ev) (hne : ev.exprStr ≠ [])
    (he : ev.err = true) : holds lib heap N ev.exprStr = .throw .parse := by
  unfold holds
  cases hp : lib.parse ev.exprStr with
  | none => rfl
  | some e => simp only; rw [if_neg (ht.bad hne he e hp N hN)]

theorem holds_good (lib : ExprLib) {heap : List RM} (hw : ∀ R ∈ heap, R.WF)
    (hpl : ∀ R ∈ heap, R.pattern = none) {m : Model} {r p : Assertion} {N : Naming}
    (hptr : ∀ f i n, N.fn f = some (.g (some i) n) → i < heap.length)
    (hN : FullNaming m r p N) (s : ReqSt) (hh : s.heap = heap) (hv : s.ev.vars.get = N.var)
    (hf : s.ev.funs.get = N.fn) (ht : TextOK lib m r p s.ev) (hne : s.ev.exprStr ≠ [])
    (he : s.ev.err = false) :
    ∃ o, exprValue lib s = (o, s) ∧ holds lib heap N s.ev.exprStr = o.map Val.truthy := by
  obtain ⟨e, hp, hc, hk⟩ := ht.good hne he
  refine ⟨denote lib heap N e, ?_, ?_⟩
  · unfold exprValue
    simp only [hc, ReqSt.onRms, hh, evalExpr_denote lib hw hpl hv hf hptr e]
    cases s; simp_all
  · unfold holds
    simp only [hp]
    rw [if_pos (hk N hN)]

/-- The type checks of the matcher value do not change it. -/
theorem matcherResult_run (lib : ExprLib) {heap : List RM} (hw : ∀ R ∈ heap, R.WF)
    (hpl : ∀ R ∈ heap, R.pattern = none) {m : Model} {r p : Assertion} {N : Naming}
    (hptr : ∀ f i n, N.fn f = some (.g (some i) n) → i < heap.length)
    (hN : FullNaming m r p N) (s : ReqSt) (hh : s.heap = heap) (hv : s.ev.vars.get = N.var)
    (hf : s.ev.funs.get = N.fn) (ht : TextOK lib m r p s.ev) (hne : s.ev.exprStr ≠ []) :
    matcherResult lib s = (holds lib heap N s.ev.exprStr, s) := by
  cases he : s.ev.err with
  | true =>
    rw [holds_err lib heap hN ht hne he]
    simp [matcherResult, isBoolType, M.bind_run, he]
  | false =>
    obtain ⟨o, ho, hd⟩ := holds_good lib hw hpl hptr hN s hh hv hf ht hne he
    rw [hd]
    have hb : isBoolType lib s = (o.map (fun v => decide (v = .num 0 ∨ v = .num 1)), s) := by
      unfold isBoolType
      simp only [M.bind_run, M.get_run, he, Bool.false_eq_true, if_false, ho]
      cases o with
      | throw e => rfl
      | ub u => rfl
      | ok v =>
        by_cases h0 : v = .num 0
        · simp [h0]
        · simp [h0, M.bind_run, ho]
    unfold matcherResult
    cases o with
    | throw e => simp only [M.bind_run, hb]; rfl
    | ub u => simp only [M.bind_run, hb]; rfl
    | ok v =>
      generalize hd : decide (v = .num 0 ∨ v = .num 1) = d at hb
      simp only [Outcome.map_ok, hd] at hb
      cases d <;> simp [M.bind_run, hb, ho]

end Casbin
