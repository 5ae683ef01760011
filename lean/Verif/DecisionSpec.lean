import Verif.RoleManagerLemmas
import Verif.Enforcer

/-!
# What a matcher means

The specification of a decision, written without the evaluator object: the value of an expression
under an assignment of its names (`denote`), and whether a rule satisfies the matcher for a
request (`verdict`). Nothing here has state.
-/

namespace Casbin

open Classical in
/-- The role `b` is held by `a`: through at most `maxLevel` links of the role manager object, or,
without a role manager, only when the names are equal. -/
noncomputable def linked (heap : List RM) (rm : Option Nat) (a b : Str) : Bool :=
  match rm with
  | none => decide (a = b)
  | some i =>
    match heap[i]? with
    | none => false
    | some R => decide (∃ n ≤ R.maxLevel, RM.Path R.Edge n a b)

/-- A name inside a domain. -/
def inDomain (d a : Str) : Str := d ++ c!"::" ++ a

/-- What a function of the matcher language returns. -/
noncomputable def FunRef.meaning (lib : ExprLib) (heap : List RM) : FunRef → List Val → Outcome Val
  | .builtin b, args =>
    match allStrs args with
    | none => .ok (.num 0)
    | some ss => if ss.length = (FunRef.builtin b).arity then lib.builtin b ss else .ok (.num 0)
  | .g rm _, args =>
    match allStrs args with
    | some [a, b] => .ok (Val.ofBool (linked heap rm a b))
    | some [a, b, d] => .ok (Val.ofBool (linked heap rm (inDomain d a) (inDomain d b)))
    | _ => .ok (.num 0)

/-- The meaning of the names in an expression, given by their lower case: exprtk does not tell names
apart that differ in case only. -/
structure Naming where
  var : Str → Option Str
  fn : Str → Option FunRef

mutual
/-- Every name of the expression is known, and every function has the right number of arguments. -/
def Naming.Knows (N : Naming) : Expr → Prop
  | .str _ => True
  | .num _ => True
  | .var x => ∃ v, N.var (lower x) = some v
  | .call f args => (∃ fr, N.fn (lower f) = some fr ∧ args.length = fr.arity) ∧ N.KnowsAll args
  | .op _ args => N.KnowsAll args
def Naming.KnowsAll (N : Naming) : List Expr → Prop
  | [] => True
  | e :: es => N.Knows e ∧ N.KnowsAll es
end

mutual
/-- The value of an expression. Unknown names have no value. -/
noncomputable def denote (lib : ExprLib) (heap : List RM) (N : Naming) : Expr → Outcome Val
  | .str s => .ok (.str s)
  | .num n => .ok (.num n)
  | .var x =>
    match N.var (lower x) with
    | some v => .ok (.str v)
    | none => .ub .nullDeref
  | .call f args =>
    match denoteAll lib heap N args with
    | .ok vs =>
      match N.fn (lower f) with
      | some fr => fr.meaning lib heap vs
      | none => .ub .nullDeref
    | .throw e => .throw e
    | .ub u => .ub u
  | .op o args => (denoteAll lib heap N args).map (lib.prim o)
noncomputable def denoteAll (lib : ExprLib) (heap : List RM) (N : Naming) :
    List Expr → Outcome (List Val)
  | [] => .ok []
  | e :: es =>
    match denote lib heap N e with
    | .ok v => (denoteAll lib heap N es).map (v :: ·)
    | .throw e => .throw e
    | .ub u => .ub u
end

/-- The variable a token of the request definition stands for, as it is entered into the symbol
table. -/
def reqRaw (t : Str) : Str := c!"r." ++ t.drop 2
/-- The variable a token of the policy definition stands for. -/
def polRaw (t : Str) : Str := c!"p." ++ tokenName t
/-- The same without regard to case. -/
def reqName (t : Str) : Str := lower (reqRaw t)
def polName (t : Str) : Str := lower (polRaw t)

/-- The variables of a matcher for a request and a rule. -/
def bindings (rt pt : List Str) (vals : List Str) (rule : Rule) : UMap Str Str :=
  (rt.map reqName).zip vals ++ (pt.map polName).zip rule

/-- The nine functions by the lower case of their names. -/
def lowBuiltins : UMap Str FunRef := Evaluator.builtins.map fun kf => (lower kf.1, kf.2)

/-- The functions of a matcher, by the lower case of their names: the nine built in, and one for
every grouping type. -/
def functions (m : Model) (f : Str) : Option FunRef :=
  match UMap.get lowBuiltins f with
  | some fr => some fr
  | none => (m.find c!"g" f).map fun a => .g a.rm (countChar '_' a.value)

/-- The names of a matcher for a request and a rule. -/
def naming (m : Model) (rt pt : List Str) (vals : List Str) (rule : Rule) : Naming :=
  { var := (bindings rt pt vals rule).get, fn := functions m }

open Classical in
/-- Whether the text `text`, read as a matcher, is satisfied under a naming; an exception when the
text is not an expression over known names, or when a function throws. -/
noncomputable def holds (lib : ExprLib) (heap : List RM) (N : Naming) (text : Str) : Outcome Bool :=
  match lib.parse text with
  | none => .throw .parse
  | some e => if N.Knows e then (denote lib heap N e).map Val.truthy else .throw .parse

/-- Whether a rule satisfies the matcher `exp` for a request. -/
noncomputable def verdict (lib : ExprLib) (m : Model) (heap : List RM) (exp : Str)
    (rt pt : List Str) (vals : List Str) (rule : Rule) : Outcome Bool := do
  let text ← ruleText exp pt rule
  holds lib heap (naming m rt pt vals rule) text

/-- A rule has the effect `w` (`allow` when the definition has no `eft` column). -/
def HasEffect (pt : List Str) (rule : Rule) (w : Effect) : Prop :=
  match w with
  | .allow => c!"p_eft" ∉ pt ∨ ∃ j : Nat, pt[j]? = some c!"p_eft" ∧ rule[j]? = some c!"allow"
  | .deny => ∃ j : Nat, pt[j]? = some c!"p_eft" ∧ rule[j]? = some c!"deny"
  | .indeterminate => ∃ j : Nat, ∃ v, pt[j]? = some c!"p_eft" ∧ rule[j]? = some v ∧
      v ≠ c!"allow" ∧ v ≠ c!"deny"

/-! ### Well-formedness -/

/-- The definitions of the model are usable: the tokens of the request and policy definitions give
distinct names of the matcher language (distinct also without regard to case), and every grouping
type is listed once and written in small letters, as `g`, `g2` are. -/
structure WellDefined (m : Model) (r p : Assertion) : Prop where
  findR : m.find c!"r" c!"r" = some r
  findP : m.find c!"p" c!"p" = some p
  rLen : ∀ t ∈ r.tokens, 2 ≤ t.length
  rValid : ∀ t ∈ r.tokens, Evaluator.validSymbol (reqName t) = true
  pValid : ∀ t ∈ p.tokens, Evaluator.validSymbol (polName t) = true
  rNodup : (r.tokens.map reqName).Nodup
  pNodup : (p.tokens.map polName).Nodup
  gNodup : (m.secMap c!"g").keys.Nodup
  gLower : ∀ k a, m.find c!"g" k = some a → lower k = k

/-- The role managers are sound, have no matching function, and every grouping type refers to an
existing one (or to none). -/
structure GoodRoles (m : Model) (heap : List RM) : Prop where
  wf : ∀ R ∈ heap, R.WF
  plain : ∀ R ∈ heap, R.pattern = none
  ptr : ∀ k a i, m.find c!"g" k = some a → a.rm = some i → i < heap.length

/-- The variables of the model's matchers as they are entered. -/
def rawNames (r p : Assertion) : List Str := r.tokens.map reqRaw ++ p.tokens.map polRaw

/-- The variables of the model's matchers. -/
def stdNames (r p : Assertion) : List Str := r.tokens.map reqName ++ p.tokens.map polName

/-- A naming that gives a value to exactly the variables of the model. -/
def FullNaming (m : Model) (r p : Assertion) (N : Naming) : Prop :=
  N.fn = functions m ∧ ∀ x, (∃ v, N.var x = some v) ↔ x ∈ stdNames r p

/-- What is compiled is what the text says: after an error the text is not an expression over the
names of the model, otherwise it is the compiled one. -/
structure TextOK (lib : ExprLib) (m : Model) (r p : Assertion) (ev : Evaluator) : Prop where
  bad : ev.exprStr ≠ [] → ev.err = true → ∀ e, lib.parse ev.exprStr = some e →
    ∀ N, FullNaming m r p N → ¬ N.Knows e
  good : ev.exprStr ≠ [] → ev.err = false →
    ∃ e, lib.parse ev.exprStr = some e ∧ ev.compiled = some e ∧ ∀ N, FullNaming m r p N → N.Knows e

/-- The variables were entered under the names the model has for them. -/
structure NamesOK (r p : Assertion) (ev : Evaluator) : Prop where
  known : ∀ x ∈ ev.names, x ∈ rawNames r p
  entered : ∀ x ∈ ev.vars.keys, ∃ y ∈ ev.names, lower y = x

/-- The evaluator object holds nothing that contradicts the model: only the model's variables,
functions as the model has them now, and a compiled expression that is what its text says. -/
structure EvOK (lib : ExprLib) (m : Model) (r p : Assertion) (ev : Evaluator) : Prop where
  vars : ∀ x ∈ ev.vars.keys, x ∈ stdNames r p
  names : NamesOK r p ev
  funs : ∀ f fr, ev.funs.get f = some fr → functions m f = some fr
  text : TextOK lib m r p ev

end Casbin
