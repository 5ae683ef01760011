import Verif.SafeModel

/-!
# Requests without undefined behaviour
-/

set_option linter.unusedSectionVars false

namespace Casbin
namespace Safe

/-! ## Effects -/

theorem noUb_scanAllow : ∀ (es : List Effect) (ms : List Bool) (i : Nat), es.length = ms.length →
    ∀ u, scanAllow es ms i ≠ .ub u
  | [], _, _, _, u, h => by simp [scanAllow] at h
  | _ :: _, [], _, hl, _, _ => by simp at hl
  | e :: es, m :: ms, i, hl, u, h => by
    have ih := noUb_scanAllow es ms (i + 1) (by simpa using hl) u
    unfold scanAllow at h
    split at h
    · exact ih h
    · split at h
      · cases h
      · exact ih h

theorem noUb_scanBack (es : List Effect) (ms : List Bool) (hl : es.length = ms.length) :
    ∀ i, i ≤ es.length → ∀ u, scanBack es ms i ≠ .ub u
  | 0, _, u, h => by simp [scanBack] at h
  | i + 1, hi, u, h => by
    have ih := noUb_scanBack es ms hl i (by omega) u
    unfold scanBack at h
    refine noUb_bind (noUb_vecAt (by omega)) (fun m _ => ?_) u h
    intro u h
    have ih := noUb_scanBack es ms hl i (by omega) u
    split at h
    · exact ih h
    · refine noUb_bind (noUb_vecAt (by omega)) (fun e _ => ?_) u h
      intro u h
      have ih := noUb_scanBack es ms hl i (by omega) u
      split at h
      · split at h <;> cases h
      · exact ih h

theorem noUb_map {α β : Type} {o : Outcome α} {f : α → β} (h : ∀ u, o ≠ .ub u) : ∀ u, o.map f ≠ .ub u := by
  intro u hu
  cases o with
  | ok a => cases hu
  | throw e => cases hu
  | ub v => exact h v rfl

theorem noUb_merge (expr : Str) {es : List Effect} {ms : List Bool} {i : Nat} (len : Nat)
    (hl : es.length = ms.length) (hi : i < es.length) : ∀ u, mergeEffects expr es ms i len ≠ .ub u := by
  have hm : ∀ u, vecAt ms i ≠ .ub u := noUb_vecAt (by omega)
  have he : ∀ u, vecAt es i ≠ .ub u := noUb_vecAt hi
  unfold mergeEffects
  split
  · refine noUb_bind hm fun m _ => ?_
    split
    · intro u h; cases h
    · refine noUb_bind he fun e _ => ?_
      intro u h
      split at h <;> cases h
  · split
    · refine noUb_bind hm fun m _ => ?_
      have hj : ∀ b u, (if b = true then Outcome.ok (Effect.deny, some i)
          else if i + 1 = len then .ok (.allow, none) else .ok (.indeterminate, none)) ≠ .ub u := by
        intro b u h
        split at h
        · cases h
        · split at h <;> cases h
      dsimp only
      split
      · exact noUb_bind (noUb_map he) fun b _ => hj b
      · exact noUb_bind (fun u h => by cases h) fun b _ => hj b
    · split
      · refine noUb_bind hm fun m _ => ?_
        have hj : ∀ b u, (if b = true then Outcome.ok (Effect.deny, some i)
            else if i + 1 < len then .ok (.indeterminate, none) else scanAllow es ms 0) ≠ .ub u := by
          intro b u h
          split at h
          · cases h
          · split at h
            · cases h
            · exact noUb_scanAllow es ms 0 hl u h
        dsimp only
        split
        · exact noUb_bind (noUb_map he) fun b _ => hj b
        · exact noUb_bind (fun u h => by cases h) fun b _ => hj b
      · split
        · exact noUb_scanBack es ms hl _ (Nat.le_refl _)
        · intro u h; cases h

section
variable {σ : Type} {P : σ → Prop} {step : Rule → M σ (Bool × Effect)}

/-- No undefined behaviour, `P` again, and a result if there was one before or there are rules. -/
theorem ruleLoop_fine (hs : ∀ r, Fine P (step r)) (expr : Str) (len : Nat) :
    ∀ (rs : List Rule) (i : Nat) (es : List Effect) (ms : List Bool) (last : Option (Effect × Option Nat)),
      es.length = ms.length → i + rs.length ≤ es.length → Fine P (ruleLoop step expr len rs i es ms last) ∧
        ((last ≠ none ∨ rs ≠ []) → ∀ s, P s → ∀ o, (ruleLoop step expr len rs i es ms last s).1 = .ok o → o ≠ none)
  | [], i, es, ms, last, _, _ => by
    refine ⟨.pure _, fun h s _ o ho => ?_⟩
    unfold ruleLoop at ho
    cases ho
    rcases h with h | h
    · exact h
    · exact absurd rfl h
  | r :: rs, i, es, ms, last, hl, hi => by
    simp only [List.length_cons] at hi
    constructor
    · refine .bind (hs r) fun me => .bind (.lift (noUb_merge expr len (by simpa using hl) (by simp; omega)))
        fun res => .ite (fun _ => .pure _) fun _ =>
          (ruleLoop_fine hs expr len rs (i + 1) _ _ _ (by simpa using hl) (by simp; omega)).1
    · intro _ s h o ho
      unfold ruleLoop at ho
      rw [M.bind_run] at ho
      have h1 := hs r s h
      rcases hr : step r s with ⟨o1, s1⟩
      rw [hr] at ho h1
      cases o1 with
      | throw e => cases ho
      | ub u => cases ho
      | ok me =>
        simp only [M.bind_run, M.lift_run] at ho
        cases hmr : mergeEffects expr (es.set i me.2) (ms.set i me.1) i len with
        | throw e => rw [hmr] at ho; cases ho
        | ub u => rw [hmr] at ho; cases ho
        | ok res =>
          rw [hmr] at ho
          simp only at ho
          split at ho
          · cases ho; simp
          · exact (ruleLoop_fine hs expr len rs (i + 1) _ _ (some res) (by simpa using hl) (by simp; omega)).2
              (.inl (by simp)) s1 h1.2 o ho

theorem runRules_fine (hs : ∀ r, Fine P (step r)) (expr : Str) (rs : List Rule) :
    Fine P (runRules step expr rs) ∧
      (rs ≠ [] → ∀ s, P s → ∀ o, (runRules step expr rs s).1 = .ok o → o ≠ none) := by
  have := ruleLoop_fine hs expr rs.length rs 0 (List.replicate rs.length .indeterminate)
    (List.replicate rs.length false) none (by simp) (by simp)
  exact ⟨this.1, fun h => this.2 (.inr h)⟩
end

/-! ## Evaluation -/

/-- The role managers. -/
def HeapOk (n : Nat) (h : List RM) : Prop := h.length = n ∧ ∀ rm ∈ h, Shut rm

theorem fine_onHeap {α : Type} {n p : Nat} (hp : p < n) {f : M RM α} (hf : Fine Shut f) :
    Fine (HeapOk n) (onHeap p f) := by
  intro h hh
  unfold onHeap
  have hlt : p < h.length := by rw [hh.1]; exact hp
  rw [List.getElem?_eq_getElem hlt]
  have h1 := hf h[p] (hh.2 _ (List.getElem_mem hlt))
  refine ⟨h1.1, by simpa using hh.1, fun rm hrm => ?_⟩
  rcases List.mem_or_eq_of_mem_set hrm with h' | rfl
  · exact hh.2 rm h'
  · exact h1.2

/-- The role managers of functions exist. -/
def FunOk (n : Nat) : FunRef → Prop
  | .g (some p) _ => p < n
  | _ => True

/-- The matching functions have no undefined behaviour. -/
def SafeLib (lib : ExprLib) : Prop := ∀ b ss u, lib.builtin b ss ≠ .ub u

mutual
theorem resolves_mono {vars vars' : UMap Str Str} {funs funs' : UMap Str FunRef}
    (hv : ∀ x, vars.has x = true → vars'.has x = true) (hf : ∀ x f, funs.get x = some f → funs'.get x = some f) :
    ∀ e : Expr, resolves vars funs e = true → resolves vars' funs' e = true
  | .str s, _ => rfl
  | .num k, _ => rfl
  | .var x, h => by unfold resolves at h ⊢; exact hv _ h
  | .call f args, h => by
    unfold resolves at h ⊢
    simp only [Bool.and_eq_true] at h ⊢
    refine ⟨?_, resolvesAll_mono hv hf args h.2⟩
    cases hg : funs.get (lower f) with
    | none => rw [hg] at h; simp at h
    | some fr => rw [hg] at h; rw [hf _ _ hg]; exact h.1
  | .op o args, h => by
    unfold resolves at h ⊢
    exact resolvesAll_mono hv hf args h

theorem resolvesAll_mono {vars vars' : UMap Str Str} {funs funs' : UMap Str FunRef}
    (hv : ∀ x, vars.has x = true → vars'.has x = true) (hf : ∀ x f, funs.get x = some f → funs'.get x = some f) :
    ∀ es : List Expr, resolvesAll vars funs es = true → resolvesAll vars' funs' es = true
  | [], _ => rfl
  | e :: es, h => by
    unfold resolvesAll at h ⊢
    simp only [Bool.and_eq_true] at h ⊢
    exact ⟨resolves_mono hv hf e h.1, resolvesAll_mono hv hf es h.2⟩
end

variable [IterOrder] {n : Nat} {lib : ExprLib}

theorem fine_callFun (hlib : SafeLib lib) {f : FunRef} (hf : FunOk n f) (vs : List Val) :
    Fine (HeapOk n) (callFun lib f vs) := by
  cases f with
  | builtin b =>
    unfold callFun
    refine .ite (fun _ => .pure _) fun _ => ?_
    split
    · exact .pure _
    · exact .lift (hlib b _)
  | g rm k =>
    cases rm with
    | none =>
      simp only [callFun]
      split <;> exact .pure _
    | some p =>
      simp only [callFun]
      split
      · exact .bind (fine_onHeap hf (fine_hasLink _ _ _)) fun _ => .pure _
      · exact .bind (fine_onHeap hf (fine_hasLink _ _ _)) fun _ => .pure _
      · exact .pure _

mutual
theorem fine_evalExpr (hlib : SafeLib lib) {vars : UMap Str Str} {funs : UMap Str FunRef}
    (hf : ∀ kv ∈ funs, FunOk n kv.2) :
    ∀ e : Expr, resolves vars funs e = true → Fine (HeapOk n) (evalExpr lib vars funs e)
  | .str s, _ => by unfold evalExpr; exact .pure _
  | .num k, _ => by unfold evalExpr; exact .pure _
  | .var x, h => by
    unfold evalExpr
    unfold resolves UMap.has at h
    cases hv : vars.get (lower x) with
    | none => rw [hv] at h; cases h
    | some v => exact .pure _
  | .call f args, h => by
    unfold evalExpr
    unfold resolves at h
    simp only [Bool.and_eq_true] at h
    refine .bind (fine_evalArgs hlib hf args h.2) fun vs => ?_
    cases hg : funs.get (lower f) with
    | none => rw [hg] at h; simp at h
    | some fr => exact fine_callFun hlib (hf _ (UMap.mem_of_get hg)) vs
  | .op o args, h => by
    unfold evalExpr
    unfold resolves at h
    exact .bind (fine_evalArgs hlib hf args h) fun _ => .pure _

theorem fine_evalArgs (hlib : SafeLib lib) {vars : UMap Str Str} {funs : UMap Str FunRef}
    (hf : ∀ kv ∈ funs, FunOk n kv.2) :
    ∀ es : List Expr, resolvesAll vars funs es = true → Fine (HeapOk n) (evalArgs lib vars funs es)
  | [], _ => by unfold evalArgs; exact .pure _
  | e :: es, h => by
    unfold evalArgs
    unfold resolvesAll at h
    simp only [Bool.and_eq_true] at h
    exact .bind (fine_evalExpr hlib hf e h.1) fun _ => .bind (fine_evalArgs hlib hf es h.2) fun _ => .pure _
end

/-- An evaluator object: the role managers of its functions exist, the compiled expression has its names
in the tables, and the names of request values have values. -/
structure EvOk (n : Nat) (ev : Evaluator) : Prop where
  funs : ∀ kv ∈ ev.funs, FunOk n kv.2
  comp : ∀ e, ev.compiled = some e → resolves ev.vars ev.funs e = true
  names : ∀ x ∈ ev.names, x.head? = some 'r' → ev.vars.has (lower (c!"r." ++ x.drop 2)) = true

omit [IterOrder] in
theorem evOk_new : EvOk n Evaluator.new :=
  ⟨fun _ h => by simp [Evaluator.new] at h, fun _ h => by simp [Evaluator.new] at h,
   fun _ h => by simp [Evaluator.new] at h⟩

omit [IterOrder] in
theorem has_set {m : UMap Str Str} {k x v : Str} (h : m.has x = true) : (m.set k v).has x = true := by
  rw [UMap.has_iff] at h ⊢
  exact (UMap.mem_keys_set _ _ _ _).mpr (.inr h)

omit [IterOrder] in
theorem fine_identifier {x v : Str} (hx : Evaluator.validSymbol x = true)
    (hr : x.head? = some 'r' → c!"r." ++ x.drop 2 = x) : Fine (EvOk n) (Evaluator.addIdentifier x v) := by
  intro ev h
  have hs : ∀ y, ev.vars.has y = true → (ev.vars.set (lower x) v).has y = true := fun y => has_set
  unfold Evaluator.addIdentifier
  by_cases h0 : ev.vars.has (lower x) = true
  · rw [if_pos h0]
    exact ⟨fun u h => by simp at h, h.funs, fun e he => resolves_mono hs (fun _ _ h => h) e (h.comp e he),
      fun y hy hd => hs _ (h.names y hy hd)⟩
  · rw [if_neg h0, if_pos hx]
    · refine ⟨fun u h => by simp at h, h.funs,
        fun e he => resolves_mono hs (fun _ _ h => h) e (h.comp e he), fun y hy hd => ?_⟩
      rcases List.mem_append.mp hy with hy | hy
      · exact hs _ (h.names y hy hd)
      · obtain rfl := List.mem_singleton.mp hy
        show UMap.has _ _ = true
        rw [hr hd, UMap.has_iff]
        exact (UMap.mem_keys_set _ _ _ _).mpr (.inl rfl)

omit [IterOrder] in
theorem fine_pushP {t v : Str} (ht : Evaluator.validSymbol (c!"p." ++ t) = true) :
    Fine (EvOk n) (Evaluator.pushString c!"p" t v) :=
  fine_identifier ht fun h => by simp at h

omit [IterOrder] in
theorem fine_pushR {t v : Str} (ht : Evaluator.validSymbol (c!"r." ++ t) = true) :
    Fine (EvOk n) (Evaluator.pushString c!"r" t v) :=
  fine_identifier ht fun _ => rfl

omit [IterOrder] in
theorem fine_addFunctions : ∀ {fs : List (Str × FunRef)}, (∀ kv ∈ fs, FunOk n kv.2) →
    Fine (EvOk n) (Evaluator.addFunctions fs)
  | [], _ => .pure _
  | (k, f) :: fs, h => by
    refine .bind (.modify fun ev hev => ?_) fun _ => fine_addFunctions fun kv hkv => h kv (List.mem_cons_of_mem _ hkv)
    split
    · exact hev
    · next hn =>
      refine ⟨fun kv hkv => ?_, fun e he => resolves_mono (fun _ h => h) (fun x g hx => ?_) e (hev.comp e he),
        hev.names⟩
      · rcases UMap.mem_set hkv with rfl | h'
        · exact h (k, f) List.mem_cons_self
        · exact hev.funs kv h'
      · rw [UMap.get_set, if_neg]
        · exact hx
        · rintro rfl
          exact hn (by simp [UMap.has, hx])

omit [IterOrder] in
theorem fine_loadFunctions : Fine (EvOk n) Evaluator.loadFunctions :=
  fine_addFunctions fun kv h => by
    simp only [Evaluator.builtins, List.mem_cons, List.not_mem_nil, or_false] at h
    rcases h with rfl | rfl | rfl | rfl | rfl | rfl | rfl | rfl | rfl <;> trivial

omit [IterOrder] in
theorem fine_eval (lib : ExprLib) (x : Str) : Fine (EvOk n) (Evaluator.eval lib x) := by
  intro ev h
  unfold Evaluator.eval
  split
  · cases hc : compile lib ev.vars ev.funs x with
    | none => exact ⟨fun u h => by simp at h, h.funs, h.comp, h.names⟩
    | some e =>
      refine ⟨fun u h => by simp at h, h.funs, fun e' he => ?_, h.names⟩
      obtain rfl := Option.some.inj he
      unfold compile at hc
      split at hc
      · cases hc
      · split at hc
        · cases hc
        · split at hc
          · next hr => obtain rfl := Option.some.inj hc; exact hr
          · cases hc
  · exact ⟨fun u h => by simp at h, h⟩

omit [IterOrder] in
theorem noUb_requestValues {ev : Evaluator} (h : EvOk n ev) : ∀ u, ev.requestValues ≠ .ub u := by
  unfold Evaluator.requestValues
  have key : ∀ (xs : List Str) (acc : UMap Str Str),
      (∀ x ∈ xs, ev.vars.has (lower (c!"r." ++ x.drop 2)) = true) → ∀ u,
      xs.foldlM (fun (acc : UMap Str Str) (x : Str) => (match ev.vars.get (lower (c!"r." ++ x.drop 2)) with
        | some v => .ok (if acc.has (x.drop 2) then acc else acc.set (x.drop 2) (Evaluator.cString v))
        | none => .ub .nullDeref : Outcome (UMap Str Str))) acc ≠ .ub u := by
    intro xs
    induction xs with
    | nil => intro acc _ u h; cases h
    | cons x xs ih =>
      intro acc hx u
      have h1 := hx x List.mem_cons_self
      rw [List.foldlM_cons]
      cases hg : ev.vars.get (lower (c!"r." ++ x.drop 2)) with
      | none => rw [UMap.has, hg] at h1; cases h1
      | some v => exact ih _ (fun y hy => hx y (List.mem_cons_of_mem _ hy)) u
  exact key _ _ fun x hx => h.names x (List.mem_filter.mp hx).1 (by simpa using (List.mem_filter.mp hx).2)

omit [IterOrder] in
theorem noUb_requestedPolicy (vals : UMap Str Str) : ∀ ts u, requestedPolicy vals ts ≠ .ub u
  | [], u, h => by cases h
  | t :: ts, u, h => by
    have ih := noUb_requestedPolicy vals ts
    unfold requestedPolicy at h
    split at h
    · cases h
    · split at h
      · exact noUb_bind ih (fun a _ u h => by cases h) u h
      · cases h

/-! ## The decision procedure -/

/-- What a request works on. -/
def ReqOk (n : Nat) (s : ReqSt) : Prop := EvOk n s.ev ∧ HeapOk n s.heap

omit [IterOrder] in
theorem fine_onEv {α : Type} {f : M Evaluator α} (h : Fine (EvOk n) f) : Fine (ReqOk n) (ReqSt.onEv f) :=
  fun s hs => ⟨(h s.ev hs.1).1, (h s.ev hs.1).2, hs.2⟩

theorem fine_exprValue (hlib : SafeLib lib) : Fine (ReqOk n) (exprValue lib) := by
  intro s hs
  unfold exprValue
  cases hc : s.ev.compiled with
  | none => exact ⟨fun u h => by simp at h, hs⟩
  | some e =>
    have := fine_evalExpr hlib hs.1.funs e (hs.1.comp e hc) s.heap hs.2
    exact ⟨this.1, hs.1, this.2⟩

theorem fine_isBool (hlib : SafeLib lib) : Fine (ReqOk n) (isBoolType lib) :=
  .get fun _ _ => .ite (fun _ => .throw _) fun _ => .bind (fine_exprValue hlib) fun _ =>
    .ite (fun _ => .pure _) fun _ => .bind (fine_exprValue hlib) fun _ => .pure _

theorem fine_matcher (hlib : SafeLib lib) : Fine (ReqOk n) (matcherResult lib) :=
  .bind (fine_isBool hlib) fun _ => .ite (fun _ => .bind (fine_exprValue hlib) fun _ => .pure _) fun _ =>
    .bind (fine_isBool hlib) fun _ => .ite (fun _ => .bind (fine_exprValue hlib) fun _ => .pure _) fun _ =>
      .throw _

omit [IterOrder] in
theorem fine_pushPolicy : ∀ {ts vs : List Str}, ts.length = vs.length →
    (∀ t ∈ ts, Evaluator.validSymbol (c!"p." ++ tokenName t) = true) → Fine (EvOk n) (pushPolicy ts vs)
  | [], _, _, _ => .pure _
  | _ :: _, [], h, _ => by simp at h
  | _ :: _, _ :: _, h, ht => .bind (fine_pushP (ht _ List.mem_cons_self)) fun _ =>
    fine_pushPolicy (by simpa using h) fun t h => ht t (List.mem_cons_of_mem _ h)

omit [IterOrder] in
theorem tokenIndex_lt (t : Str) : ∀ (ts : List Str) (i j : Nat), tokenIndex t ts i = some j → j < i + ts.length
  | [], _, _, h => by simp [tokenIndex] at h
  | x :: xs, i, j, h => by
    unfold tokenIndex at h
    cases hx : tokenIndex t xs (i + 1) with
    | some k =>
      rw [hx] at h
      obtain rfl := Option.some.inj h
      have := tokenIndex_lt t xs (i + 1) k hx
      simp only [List.length_cons]
      omega
    | none =>
      rw [hx] at h
      simp only at h
      split at h
      · obtain rfl := Option.some.inj h; simp
      · cases h

omit [IterOrder] in
theorem noUb_evalTable {ts : List Str} {r : Rule} (hl : ts.length = r.length) :
    ∀ names acc u, evalTable ts r names acc ≠ .ub u
  | [], _, _, h => by cases h
  | x :: xs, acc, u, h => by
    unfold evalTable at h
    cases hx : tokenIndex (escapeAssertion x) ts 0 with
    | none => rw [hx] at h; cases h
    | some i =>
      rw [hx] at h
      have := tokenIndex_lt _ _ _ _ hx
      exact noUb_bind (noUb_vecAt (by omega)) (fun v _ u => noUb_evalTable hl xs _ u) u h

omit [IterOrder] in
theorem noUb_ruleText (exp : Str) {ts : List Str} {r : Rule} (hl : ts.length = r.length) :
    ∀ u, ruleText exp ts r ≠ .ub u := by
  intro u h
  unfold ruleText at h
  split at h
  · exact noUb_bind (noUb_evalTable hl _ _) (fun _ _ u h => by cases h) u h
  · cases h

omit [IterOrder] in
theorem noUb_ruleEffect {ts : List Str} {r : Rule} (hl : ts.length = r.length) :
    ∀ u, ruleEffect ts r ≠ .ub u := by
  intro u h
  unfold ruleEffect at h
  cases hx : tokenIndex c!"p_eft" ts 0 with
  | none => rw [hx] at h; cases h
  | some i =>
    rw [hx] at h
    have := tokenIndex_lt _ _ _ _ hx
    refine noUb_bind (noUb_vecAt (by omega)) (fun v _ u h => ?_) u h
    split at h
    · cases h
    · split at h <;> cases h

theorem fine_ruleStep (hlib : SafeLib lib) (exp : Str) {ts : List Str}
    (ht : ∀ t ∈ ts, Evaluator.validSymbol (c!"p." ++ tokenName t) = true) (r : Rule) :
    Fine (ReqOk n) (ruleStep lib exp ts r) :=
  .ite (fun _ => .throw _) fun h => by
    have hl : ts.length = r.length := by simpa using h
    exact .bind (fine_onEv (fine_pushPolicy hl ht)) fun _ => .bind (.lift (noUb_ruleText exp hl)) fun _ =>
      .bind (fine_onEv (fine_eval lib _)) fun _ => .bind (fine_matcher hlib) fun _ =>
        .bind (.lift (noUb_ruleEffect hl)) fun _ => .pure _

omit [IterOrder] in
theorem fine_finish (rules : List Rule) {res : Option (Effect × Option Nat)} (h : res ≠ none) :
    Fine (ReqOk n) (finish rules res) := by
  cases res with
  | none => exact absurd rfl h
  | some x =>
    obtain ⟨eff, idx⟩ := x
    unfold finish
    cases idx with
    | none => exact Fine.pure _
    | some i =>
      simp only
      split
      · exact .bind (.modify fun _ h => h) fun _ => .pure _
      · exact Fine.pure _

theorem fine_enforceEmpty (hlib : SafeLib lib) (exp eff : Str) {ts : List Str}
    (ht : ∀ t ∈ ts, Evaluator.validSymbol (c!"p." ++ tokenName t) = true) :
    Fine (ReqOk n) (enforceEmpty lib exp ts eff) :=
  .ite (fun _ => .throw _) fun _ => .bind (fine_onEv (fine_pushPolicy (by simp) ht)) fun _ =>
    .bind (fine_onEv (fine_eval lib _)) fun _ => .ite (fun _ => .pure _) fun _ =>
      .bind (fine_exprValue hlib) fun _ =>
        .bind (.lift (by unfold mergeEmpty; exact noUb_merge _ _ rfl (by simp))) fun _ =>
          fine_finish [] (by simp)

variable {S : Shape} {L : Prop}

theorem fun_g {m : Model} (h : MInv S L n m) : ∀ kv ∈ gFunctions m, FunOk n kv.2 := by
  intro kv hkv
  unfold gFunctions at hkv
  obtain ⟨ka, h1, rfl⟩ := List.mem_map.mp hkv
  have h2 := (IterOrder.iter_perm _).mem_iff.mp h1
  unfold Model.secMap at h2
  cases hg : UMap.get m c!"g" with
  | none => rw [hg] at h2; cases h2
  | some am =>
    rw [hg] at h2
    cases hr : ka.2.rm with
    | none => simp only [FunOk]
    | some p => exact h.ptr _ (UMap.mem_of_get hg) ka h2 p hr

theorem noUb_select {m : Model} (h : Askable m) {ev : Evaluator} (hev : EvOk n ev) :
    ∀ u, selectPolicies m ev ≠ .ub u := by
  obtain ⟨⟨r, h1, -⟩, ⟨p, h2, -⟩, -⟩ := h
  unfold selectPolicies
  rw [h1, h2]
  simp only
  split
  · exact noUb_bind (noUb_requestValues hev) fun vals _ =>
      noUb_bind (noUb_requestedPolicy vals _) fun _ _ u h => by cases h
  · intro u h; cases h

theorem fine_mEnforce (hlib : SafeLib lib) {m : Model} (hm : MInv S L n m) (ha : S.asked) (enabled : Bool)
    (matcher : Str) : Fine (ReqOk n) (mEnforce lib m enabled matcher) := by
  have hA := hm.asks ha
  obtain ⟨⟨r, h1, -⟩, ⟨p, h2, h3⟩, h4, h5⟩ := hm.asks ha
  have rest : ∀ exp : Str, Fine (ReqOk n) (needAssertion m c!"r" c!"r" >>= fun _ =>
      needAssertion m c!"p" c!"p" >>= fun p => M.get >>= fun s => M.lift (selectPolicies m s.ev) >>= fun rules =>
      needAssertion m c!"e" c!"e" >>= fun e =>
      if rules ≠ [] then runRules (ruleStep lib exp p.tokens) e.value rules >>= fun res => finish rules res
      else enforceEmpty lib exp p.tokens e.value) := by
    intro exp
    unfold needAssertion
    rw [h1, h2]
    cases he : m.find c!"e" c!"e" with
    | none => exact absurd he h4
    | some e =>
      refine .bind (.pure _) fun _ => .bindQ (fun q => q = p) (.pure _)
        (fun _ _ q hq => by cases hq; rfl) fun q hq => ?_
      subst hq
      refine .get fun s hs => .bind (.lift (noUb_select hA hs.1)) fun rules => .bind (.pure _) fun e =>
        .ite (fun hne => ?_) fun _ => fine_enforceEmpty hlib exp _ h3
      have := runRules_fine (P := ReqOk n) (fine_ruleStep hlib exp h3) e.value rules
      exact .bindQ (fun o => o ≠ none) this.1 (this.2 hne) fun o ho => fine_finish rules ho
  have need : Fine (ReqOk n) (needAssertion m c!"m" c!"m") := by
    unfold needAssertion
    cases hf : m.find c!"m" c!"m" with
    | none => exact absurd hf h5
    | some a => exact .pure _
  unfold mEnforce
  refine .bind (.modify fun _ h => h) fun _ => .ite (fun _ => .pure _) fun _ =>
    .bind (fine_onEv fine_loadFunctions) fun _ => .bind (fine_onEv (fine_addFunctions (fun_g hm))) fun _ => ?_
  dsimp only
  refine .ite (fun _ => ?_) fun _ => rest matcher
  exact .bind need fun a => rest a.value

omit [IterOrder] in
theorem fine_pushRequest : ∀ {ts : List Str} (vs : List ReqVal),
    (∀ t ∈ ts, 2 ≤ t.length → Evaluator.validSymbol (c!"r." ++ t.drop 2) = true) →
    Fine (EvOk n) (pushRequest ts vs)
  | [], _, _ => .pure _
  | _ :: _, [], _ => .pure _
  | t :: ts, v :: vs, h => by
    unfold pushRequest
    refine .ite (fun _ => .throw _) fun hl => ?_
    have hr : Fine (EvOk n) (pushRequest ts vs) := fine_pushRequest vs fun t ht => h t (List.mem_cons_of_mem _ ht)
    cases v with
    | str s => exact .bind (fine_pushR (h t List.mem_cons_self (by omega))) fun _ => hr
    | json => exact hr

omit [IterOrder] in
theorem fine_pushMap : ∀ {vs : List (Str × ReqVal)},
    (∀ xv ∈ vs, xv.2 = .json ∨ Evaluator.validSymbol (c!"r." ++ xv.1) = true) → Fine (EvOk n) (pushMap vs)
  | [], _ => .pure _
  | (x, v) :: vs, h => by
    unfold pushMap
    have hr : Fine (EvOk n) (pushMap vs) := fine_pushMap fun t ht => h t (List.mem_cons_of_mem _ ht)
    cases v with
    | str s =>
      refine .bind (fine_pushR ?_) fun _ => hr
      exact (h (x, .str s) List.mem_cons_self).resolve_left (by simp)
    | json => exact hr

end Safe
end Casbin
