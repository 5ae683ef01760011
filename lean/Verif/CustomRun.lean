import Verif.CustomLemmas
import Verif.DecisionMain

/-!
# Evaluators that evaluate

`View` is what an evaluator has been told: the values of the fields and the grouping functions.
`Lawful` says of an implementation of `IEvaluator` that it evaluates: what it finds for a text is a
function of the text and of what it has been told. The lemmas run a request with such an evaluator.
-/

namespace Casbin
namespace Custom

/-- What an evaluator has been told. -/
structure View where
  vars : Str → Option Str
  gs : List (Str × Option Nat × Nat)

/-- The view with another value of a field. -/
def View.bind (w : View) (x v : Str) : View :=
  { w with vars := fun y => if y = x then some v else w.vars y }

/-- The view with the fields of a rule. -/
def View.withRule (w : View) : List Str → Rule → View
  | t :: ts, v :: vs => (w.bind (c!"p." ++ tokenName t) v).withRule ts vs
  | _, _ => w

/-- The view with a further grouping function. -/
def View.addG (w : View) (name : Str) (rm : Option Nat) (narg : Nat) : View :=
  { w with gs := w.gs ++ [(name, rm, narg)] }

/-- The view with the grouping functions of the model. -/
def View.addGs (w : View) : List (Str × Assertion) → View
  | [] => w
  | (name, a) :: rest => (w.addG name a.rm (countChar '_' a.value)).addGs rest

/-- The evaluator says `ask text view` when it is asked about a text, by `GetBoolean` or `GetFloat` as
`CheckType` tells, or by an exception of `CheckType`. -/
def Says {σ : Type} (ev : EvalImpl σ) (s : σ) : Outcome Bool → Prop
  | .ok b => (ev.isBool s = (.ok true, s) ∧ ev.getBoolean s = (.ok b, s)) ∨
      (ev.isBool s = (.ok false, s) ∧ ev.getFloat s = (.ok b, s))
  | .throw e => ev.isBool s = (.throw e, s)
  | .ub u => ev.isBool s = (.ub u, s)

/-- The implementation evaluates: it remembers what it is told and says of a text what `ask` says. -/
structure Lawful {σ : Type} (ev : EvalImpl σ) (view : σ → View) (ask : Str → View → Outcome Bool) :
    Prop where
  clean : ∀ s, ∃ s', ev.clean s = (.ok (), s') ∧ view s' = view s
  initialObject : ∀ o s, ∃ s', ev.initialObject o s = (.ok (), s') ∧ view s' = view s
  pushString : ∀ t p v s, ∃ s', ev.pushString t p v s = (.ok (), s') ∧
    view s' = (view s).bind (t ++ c!"." ++ p) v
  loadFunctions : ∀ s, ∃ s', ev.loadFunctions s = (.ok (), s') ∧ view s' = view s
  loadG : ∀ rm name narg s, ∃ s', ev.loadG rm name narg s = (.ok (), s') ∧
    view s' = (view s).addG name rm narg
  eval : ∀ text s, ∃ b s', ev.eval text s = (.ok b, s') ∧ view s' = view s ∧
    Says ev s' (ask text (view s))

variable {σ : Type} {ev : EvalImpl σ} {view : σ → View} {ask : Str → View → Outcome Bool}

theorem matcherResult_says {s : σ} {o : Outcome Bool} (h : Says ev s o) :
    matcherResult ev s = (o, s) := by
  cases o with
  | ok b =>
    rcases h with ⟨h1, h2⟩ | ⟨h1, h2⟩
    · simp [matcherResult, M.bind_run, h1, h2]
    · simp [matcherResult, M.bind_run, h1, h2]
  | throw e => simp [matcherResult, M.bind_run, show ev.isBool s = _ from h]
  | ub u => simp [matcherResult, M.bind_run, show ev.isBool s = _ from h]

theorem pushPolicy_lawful (L : Lawful ev view ask) (ts : List Str) (vs : List Str)
    (hl : vs.length = ts.length) (s : σ) :
    ∃ s', pushPolicy ev ts vs s = (.ok (), s') ∧ view s' = (view s).withRule ts vs := by
  induction ts generalizing vs s with
  | nil => exact ⟨s, rfl, by cases vs <;> rfl⟩
  | cons t ts ih =>
    cases vs with
    | nil => simp at hl
    | cons v vs =>
      obtain ⟨s1, h1, e1⟩ := L.pushString c!"p" (tokenName t) v s
      obtain ⟨s2, h2, e2⟩ := ih vs (by simpa using hl) s1
      refine ⟨s2, ?_, ?_⟩
      · simp only [pushPolicy, M.bind_run, h1, h2]
      · rw [e2, e1]; rfl

theorem loadGs_lawful (L : Lawful ev view ask) (l : List (Str × Assertion)) (s : σ) :
    ∃ s', loadGs ev l s = (.ok (), s') ∧ view s' = (view s).addGs l := by
  induction l generalizing s with
  | nil => exact ⟨s, rfl, rfl⟩
  | cons ka l ih =>
    obtain ⟨name, a⟩ := ka
    obtain ⟨s1, h1, e1⟩ := L.loadG a.rm name (countChar '_' a.value) s
    obtain ⟨s2, h2, e2⟩ := ih s1
    refine ⟨s2, ?_, ?_⟩
    · simp only [loadGs, M.bind_run, h1, h2]
    · rw [e2, e1]; rfl

theorem withRule_gs (w : View) (ts : List Str) (r : Rule) : (w.withRule ts r).gs = w.gs := by
  induction ts generalizing w r with
  | nil => cases r <;> rfl
  | cons t ts ih =>
    cases r with
    | nil => rfl
    | cons v vs => simp only [View.withRule, ih]; rfl

theorem withRule_vars (w : View) (ts : List Str) (r : Rule) (hl : r.length = ts.length) (y : Str) :
    ((∃ t ∈ ts, y = c!"p." ++ tokenName t) ∧ ∃ v, ∀ w' : View, (w'.withRule ts r).vars y = some v) ∨
    ((¬ ∃ t ∈ ts, y = c!"p." ++ tokenName t) ∧ (w.withRule ts r).vars y = w.vars y) := by
  induction ts generalizing w r with
  | nil => right; cases r <;> exact ⟨by simp, rfl⟩
  | cons t ts ih =>
    cases r with
    | nil => simp at hl
    | cons v vs =>
      rcases ih (w.bind (c!"p." ++ tokenName t) v) vs (by simpa using hl) with ⟨⟨t', ht', hy⟩, v', hv⟩ | ⟨hn, hv⟩
      · exact Or.inl ⟨⟨t', List.mem_cons_of_mem _ ht', hy⟩, v', fun w' => hv _⟩
      · by_cases hy : y = c!"p." ++ tokenName t
        · refine Or.inl ⟨⟨t, List.mem_cons_self, hy⟩, v, fun w' => ?_⟩
          rcases ih (w'.bind (c!"p." ++ tokenName t) v) vs (by simpa using hl) with
            ⟨he, _⟩ | ⟨_, hv'⟩
          · exact absurd he hn
          · show ((w'.bind (c!"p." ++ tokenName t) v).withRule ts vs).vars y = some v
            rw [hv']; simp [View.bind, hy]
        · refine Or.inr ⟨?_, ?_⟩
          · rintro ⟨t', ht', e⟩
            rcases List.mem_cons.mp ht' with rfl | h
            · exact hy e
            · exact hn ⟨t', h, e⟩
          · show ((w.bind (c!"p." ++ tokenName t) v).withRule ts vs).vars y = _
            rw [hv]
            exact if_neg hy

/-- The fields of one rule replace those of another. -/
theorem withRule_withRule (w : View) (ts : List Str) (r r' : Rule) (hl : r.length = ts.length)
    (hl' : r'.length = ts.length) : (w.withRule ts r).withRule ts r' = w.withRule ts r' := by
  have hg : ((w.withRule ts r).withRule ts r').gs = (w.withRule ts r').gs := by
    simp only [withRule_gs]
  have hv : ((w.withRule ts r).withRule ts r').vars = (w.withRule ts r').vars := by
    funext y
    rcases withRule_vars w ts r' hl' y with ⟨_, v, hv⟩ | ⟨hn, hv⟩
    · rw [hv, hv]
    · rcases withRule_vars (w.withRule ts r) ts r' hl' y with ⟨he, _⟩ | ⟨_, hv'⟩
      · exact absurd he hn
      · rcases withRule_vars w ts r hl y with ⟨he, _⟩ | ⟨_, hv''⟩
        · exact absurd he hn
        · rw [hv', hv'', hv]
  rcases h1 : (w.withRule ts r).withRule ts r' with ⟨a, b⟩
  rcases h2 : w.withRule ts r' with ⟨a', b'⟩
  rw [h1, h2] at hg hv
  simp only at hg hv
  rw [hg, hv]

/-- Whether a rule counts: what the evaluator says of the text for this rule, told the fields of the
rule. -/
def ruleVerdict (ask : Str → View → Outcome Bool) (w : View) (exp : Str) (tokens : List Str)
    (r : Rule) : Outcome Bool := do
  let text ← ruleText exp tokens r
  ask text (w.withRule tokens r)

/-- The view is the one at the beginning of the loop, or that with the fields of a rule. -/
def During (w0 : View) (tokens : List Str) (w : View) : Prop :=
  w = w0 ∨ ∃ r, r.length = tokens.length ∧ w = w0.withRule tokens r

theorem During.withRule {w0 w : View} {tokens : List Str} (h : During w0 tokens w) (r : Rule)
    (hl : r.length = tokens.length) : w.withRule tokens r = w0.withRule tokens r := by
  rcases h with rfl | ⟨r0, h0, rfl⟩
  · rfl
  · exact withRule_withRule w0 tokens r0 r h0 hl

/-- One round of the loop. -/
theorem ruleStep_lawful (L : Lawful ev view ask) (w0 : View) (exp : Str) (tokens : List Str)
    (r : Rule) (s : σ) (hd : During w0 tokens (view s)) :
    ∃ s', ruleStep ev exp tokens r s =
        ((if tokens.length ≠ r.length then .throw .enforcer else do
          let b ← ruleVerdict ask w0 exp tokens r
          let e ← ruleEffect tokens r
          .ok (b, e)), s') ∧ During w0 tokens (view s') := by
  simp only [ruleStep]
  by_cases hl : tokens.length ≠ r.length
  · rw [if_pos hl, if_pos hl]; exact ⟨s, rfl, hd⟩
  · rw [if_neg hl, if_neg hl]
    have hl' : r.length = tokens.length := by omega
    obtain ⟨s1, h1, e1⟩ := L.clean s
    obtain ⟨s2, h2, e2⟩ := L.initialObject c!"p" s1
    obtain ⟨s3, h3, e3⟩ := pushPolicy_lawful L tokens r hl' s2
    have ew : view s3 = w0.withRule tokens r := by
      rw [e3, e2, e1, hd.withRule r hl']
    have hd3 : During w0 tokens (view s3) := Or.inr ⟨r, hl', ew⟩
    simp only [M.bind_run, h1, h2, h3, ruleVerdict]
    cases ht : ruleText exp tokens r with
    | throw e => exact ⟨s3, rfl, hd3⟩
    | ub u => exact ⟨s3, rfl, hd3⟩
    | ok text =>
      obtain ⟨b, s4, h4, e4, hsays⟩ := L.eval text s3
      have hd4 : During w0 tokens (view s4) := by rw [e4]; exact hd3
      simp only [M.lift_run, h4, matcherResult_says hsays, Outcome.ok_bind]
      rw [ew]
      cases ha : ask text (w0.withRule tokens r) with
      | throw e => exact ⟨s4, rfl, hd4⟩
      | ub u => exact ⟨s4, rfl, hd4⟩
      | ok m =>
        simp only [Outcome.ok_bind]
        cases ruleEffect tokens r <;> exact ⟨s4, rfl, hd4⟩

/-- An effector without objects of its own. -/
def EffImpl.ofFun (f : Str → List Effect → List Bool → Nat → Nat → Effect × Option (Option Nat)) :
    EffImpl σ := { merge := fun x es ms i n => Pure.pure (f x es ms i n) }

/-- What is asked of an effector after the rule number `k`: the effects and results of the rules so
far, followed by those of rules not looked at yet. -/
def asked {α : Type} (f : Str → List Effect → List Bool → Nat → Nat → α) (expr : Str)
    (vs : List (Bool × Effect)) (k : Nat) : α :=
  f expr ((vs.take (k + 1)).map Prod.snd ++ List.replicate (vs.length - (k + 1)) .indeterminate)
    ((vs.take (k + 1)).map Prod.fst ++ List.replicate (vs.length - (k + 1)) false) k vs.length

theorem set_pad {α : Type} (l : List α) (a x : α) (n : Nat) :
    (l ++ List.replicate (n + 1) x).set l.length a = (l ++ [a]) ++ List.replicate n x := by
  induction l with
  | nil => simp [List.replicate_succ]
  | cons b l ih => simpa using ih

theorem loop_decides (step : Rule → M σ (Bool × Effect)) (Inv : σ → Prop)
    (g : Rule → Bool × Effect)
    (f : Str → List Effect → List Bool → Nat → Nat → Effect × Option (Option Nat)) (expr : Str)
    (all : List (Bool × Effect)) (k : Nat) (hk : k < all.length)
    (i : Option Nat) (hi : (asked f expr all k).2 = some i)
    (hlast : (asked f expr all k).1 ≠ .indeterminate ∨ k + 1 = all.length)
    (hbefore : ∀ j < k, (asked f expr all j).1 = .indeterminate)
    (rs : List Rule) : ∀ (done : List (Bool × Effect)) (last : Option Effect)
      (ix : Option (Option Nat)) (s : σ), done ++ rs.map g = all → done.length ≤ k → Inv s →
      (∀ r ∈ rs, ∀ s, Inv s → ∃ s', step r s = (.ok (g r), s') ∧ Inv s') →
    ∃ s', ruleLoop (EffImpl.ofFun f) step expr all.length rs done.length
        (done.map Prod.snd ++ List.replicate rs.length .indeterminate)
        (done.map Prod.fst ++ List.replicate rs.length false) last ix s =
      (.ok (some (asked f expr all k).1, some i), s') ∧ Inv s' := by
  induction rs with
  | nil =>
    intro done last ix s hall hle _ _
    exfalso
    have := congrArg List.length hall
    simp at this
    omega
  | cons r rs ih =>
    intro done last ix s hall hle hinv hstep
    obtain ⟨s1, h1, hi1⟩ := hstep r (by simp) s hinv
    have hlen : done.length + (rs.length + 1) = all.length := by
      have := congrArg List.length hall; simpa using this
    have htake : all.take (done.length + 1) = done ++ [g r] := by
      rw [← hall, List.map_cons, List.take_length_add_append]
      simp
    have hes : (done.map Prod.snd ++ List.replicate (rs.length + 1) Effect.indeterminate).set
        done.length (g r).2 =
        (done ++ [g r]).map Prod.snd ++ List.replicate rs.length .indeterminate := by
      have := set_pad (done.map Prod.snd) (g r).2 Effect.indeterminate rs.length
      simpa using this
    have hms : (done.map Prod.fst ++ List.replicate (rs.length + 1) false).set
        done.length (g r).1 =
        (done ++ [g r]).map Prod.fst ++ List.replicate rs.length false := by
      have := set_pad (done.map Prod.fst) (g r).1 false rs.length
      simpa using this
    have hask : f expr ((done ++ [g r]).map Prod.snd ++ List.replicate rs.length .indeterminate)
        ((done ++ [g r]).map Prod.fst ++ List.replicate rs.length false) done.length all.length =
        asked f expr all done.length := by
      rw [asked, htake, show all.length - (done.length + 1) = rs.length by omega]
    simp only [ruleLoop, M.bind_run, h1, List.length_cons, hes, hms, EffImpl.ofFun, M.pure_run,
      hask]
    by_cases hkk : done.length = k
    · by_cases hdec : (asked f expr all done.length).1 ≠ .indeterminate
      · rw [if_pos hdec]
        refine ⟨s1, ?_, hi1⟩
        rw [hkk, hi]
        rfl
      · rw [if_neg hdec]
        have hkl : k + 1 = all.length := by
          rcases hlast with h | h
          · rw [hkk] at hdec; exact absurd h hdec
          · exact h
        have : rs = [] := by
          have : rs.length = 0 := by omega
          exact List.length_eq_zero_iff.mp this
        subst this
        refine ⟨s1, ?_, hi1⟩
        rw [hkk, hi]
        rfl
    · have hlt : done.length < k := by omega
      rw [if_neg (by rw [hbefore _ hlt]; simp)]
      have := ih (done ++ [g r]) (some (asked f expr all done.length).1)
        (written ix (asked f expr all done.length).2) s1
        (by rw [← hall]; simp) (by simp; omega) hi1
        (fun r hr => hstep r (by simp [hr]))
      simpa [EffImpl.ofFun] using this

end Custom
end Casbin
