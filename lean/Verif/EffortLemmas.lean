import Verif.Effort
import Verif.GrowthLemmas

/-!
# What a request adds to the record

Helper lemmas for `Props/Effort`.
-/

namespace Casbin
namespace Custom
namespace Effort

open CallSt

/-- The answer, if there is one. -/
def okOf {α : Type} : Outcome α → Option α
  | .ok a => some a
  | _ => none

/-- The program keeps `I` and adds events to the record of which `Q` holds, together with its answer. -/
def Trace {α : Type} (I : LibObj → Prop) (Q : Option α → List Event → Prop) (f : M Obj α) : Prop :=
  ∀ s, I s.1 → ∃ l, (f s).2.2 = s.2 ++ l ∧ I (f s).2.1 ∧ Q (okOf (f s).1) l

variable {α β : Type} {I : LibObj → Prop} {Q : Option α → List Event → Prop}

theorem Trace.mono {Q' : Option α → List Event → Prop} {f : M Obj α} (h : Trace I Q f)
    (hq : ∀ o l, Q o l → Q' o l) : Trace I Q' f := fun s hs =>
  let ⟨l, h1, h2, h3⟩ := h s hs
  ⟨l, h1, h2, hq _ _ h3⟩

theorem Trace.pure (a : α) : Trace I (fun o l => o = some a ∧ l = []) (Pure.pure a) :=
  fun s hs => ⟨[], by simp, hs, rfl, rfl⟩

theorem Trace.throw (e : Exn) : Trace I (fun (o : Option α) l => o = none ∧ l = []) (M.throw e) :=
  fun s hs => ⟨[], by simp, hs, rfl, rfl⟩

theorem Trace.ub (u : UB) : Trace I (fun (o : Option α) l => o = none ∧ l = []) (M.ub u) :=
  fun s hs => ⟨[], by simp, hs, rfl, rfl⟩

theorem Trace.lift (x : Outcome α) : Trace I (fun o l => o = okOf x ∧ l = []) (M.lift x) := by
  cases x <;> exact fun s hs => ⟨[], by simp, hs, rfl, rfl⟩

theorem Trace.bind {Q' : α → Option β → List Event → Prop} {R : Option β → List Event → Prop}
    {f : M Obj α} {g : α → M Obj β} (hf : Trace I Q f) (hg : ∀ a, Trace I (Q' a) (g a))
    (hn : ∀ l, Q none l → R none l)
    (hs : ∀ a o l l', Q (some a) l → Q' a o l' → R o (l ++ l')) : Trace I R (f >>= g) := by
  intro s hI
  obtain ⟨l, h1, h2, h3⟩ := hf s hI
  simp only [M.bind_run]
  rcases hfs : f s with ⟨o, t⟩
  rw [hfs] at h1 h2 h3
  cases o with
  | ok a =>
    obtain ⟨l', h4, h5, h6⟩ := hg a t h2
    simp only at h1 h2 h3
    exact ⟨l ++ l', by rw [h4, h1, List.append_assoc], h5, hs a _ _ _ h3 h6⟩
  | throw e => exact ⟨l, h1, h2, hn l h3⟩
  | ub u => exact ⟨l, h1, h2, hn l h3⟩

/-- A first program that adds nothing. -/
theorem Trace.silent {f : M Obj α} {g : α → M Obj β} {R : Option β → List Event → Prop}
    (hf : Trace I (fun _ l => l = []) f) (hg : ∀ a, Trace I R (g a)) (hn : R none []) :
    Trace I R (f >>= g) :=
  Trace.bind hf hg (fun l h => by rw [h]; exact hn) (fun a o l l' h h' => by rw [h]; exact h')

theorem Trace.ite (c : Prop) [Decidable c] {f g : M Obj α} (h : Trace I Q f) (h' : Trace I Q g) :
    Trace I Q (if c then f else g) := by split <;> assumption

/-- A method that does not touch the record. -/
theorem silent_onLib {f : M LibObj α} (h : ∀ s, I s → I (f s).2) :
    Trace I (fun _ l => l = []) (onLib f) := fun s hs => ⟨[], by simp [onLib], h s.1 hs, rfl⟩

/-- Number of evaluations. -/
def valueCount (l : List Event) : Nat := l.countP fun e => match e with | .value _ => true | _ => false

/-- The texts given to `Eval`. -/
def texts (l : List Event) : List Str := l.filterMap fun e => match e with | .text t => some t | _ => none

/-- The texts compiled. -/
def compiledTexts (l : List Event) : List Str :=
  l.filterMap fun e => match e with | .compiled t => some t | _ => none

/-- The results of the evaluations. -/
def results (l : List Event) : List (Outcome Val) :=
  l.filterMap fun e => match e with | .value v => some v | _ => none

variable [IterOrder]

/-- What is kept by everything an evaluator does. -/
structure Kept (lib : ExprLib) (I : LibObj → Prop) : Prop where
  onEv : ∀ {α : Type} (f : M Evaluator α) s, I s → I (onEv f s).2
  value : ∀ s, I s → I (exprValue lib s).2

theorem trace_value {lib : ExprLib} (K : Kept lib I) :
    Trace I (fun o l => ∃ x, l = [.value x] ∧ o = okOf x) (value lib) :=
  fun s hs => ⟨_, rfl, K.value s.1 hs, _, rfl, rfl⟩

theorem trace_truth {lib : ExprLib} (K : Kept lib I) :
    Trace I (fun _ l => ∃ x, l = [.value x]) (truth lib) :=
  Trace.bind (trace_value K) (fun _ => Trace.pure _) (fun l ⟨x, h, _⟩ => ⟨x, h⟩)
    (fun a o l l' ⟨x, h, _⟩ h' => ⟨x, by simp [h, h'.2]⟩)

theorem trace_isBool {lib : ExprLib} (K : Kept lib I) :
    Trace I (fun _ l => ∃ xs : List (Outcome Val), l = xs.map .value ∧ xs.length ≤ 2) (isBool lib) := by
  refine Trace.silent (fun s hs => ⟨[], by simp, hs, rfl⟩) (fun s => ?_) ⟨[], rfl, by simp⟩
  refine Trace.ite _ ((Trace.throw _).mono fun o l h => ⟨[], by simp [h.2], by simp⟩) ?_
  refine Trace.bind (trace_value K) (Q' := fun _ _ l => ∃ xs : List (Outcome Val), l = xs.map .value ∧ xs.length ≤ 1) ?_
    (fun l ⟨x, h, _⟩ => ⟨[x], h, by simp⟩)
    (fun a o l l' ⟨x, h, _⟩ ⟨xs, h', h2⟩ => ⟨x :: xs, by simp [h, h'], by simpa using h2⟩)
  intro v
  refine Trace.ite _ ((Trace.pure _).mono fun o l h => ⟨[], by simp [h.2], by simp⟩) ?_
  exact Trace.bind (trace_value K) (fun _ => Trace.pure _) (fun l ⟨x, h, _⟩ => ⟨[x], h, by simp⟩)
    (fun a o l l' ⟨x, h, _⟩ h' => ⟨[x], by simp [h, h'.2], by simp⟩)

theorem trace_matcherResult {lib : ExprLib} (K : Kept lib I) :
    Trace I (fun _ l => ∃ xs : List (Outcome Val), l = xs.map .value ∧ xs.length ≤ 5) (matcherResult (exprtk lib)) := by
  have hb := trace_isBool K
  have ht := trace_truth K
  refine Trace.bind hb (Q' := fun _ _ l => ∃ xs : List (Outcome Val), l = xs.map .value ∧ xs.length ≤ 3) ?_
    (fun l ⟨xs, h, h2⟩ => ⟨xs, h, by omega⟩)
    (fun a o l l' ⟨xs, h, h2⟩ ⟨ys, h', h3⟩ => ⟨xs ++ ys, by simp [h, h'], by simp; omega⟩)
  intro b
  refine Trace.ite _ (ht.mono fun o l ⟨x, h⟩ => ⟨[x], h, by simp⟩) ?_
  refine Trace.bind hb (Q' := fun _ _ l => ∃ xs : List (Outcome Val), l = xs.map .value ∧ xs.length ≤ 1) ?_
    (fun l ⟨xs, h, h2⟩ => ⟨xs, h, by omega⟩)
    (fun a o l l' ⟨xs, h, h2⟩ ⟨ys, h', h3⟩ => ⟨xs ++ ys, by simp [h, h'], by simp; omega⟩)
  intro b
  exact Trace.ite _ (ht.mono fun o l ⟨x, h⟩ => ⟨[x], h, by simp⟩)
    ((Trace.throw _).mono fun o l h => ⟨[], by simp [h.2], by simp⟩)

theorem trace_eval {lib : ExprLib} (K : Kept lib I) (t : Str) :
    Trace I (fun o l => o.isSome = true ∧ ∃ c : Bool, l = .text t :: if c then [.compiled t] else [])
      (eval lib t) := by
  intro s hs
  refine ⟨_, rfl, K.onEv _ s.1 hs, ?_, decide (s.1.1.exprStr ≠ t), ?_⟩
  · simp only [eval, onEv, Evaluator.eval]
    split
    · split <;> rfl
    · rfl
  · simp

theorem trace_pushPolicy {lib : ExprLib} (K : Kept lib I) (ts vs : List Str) :
    Trace I (fun _ l => l = []) (pushPolicy (exprtk lib) ts vs) := by
  induction ts generalizing vs with
  | nil => cases vs <;> exact (Trace.pure _).mono fun _ _ h => h.2
  | cons t ts ih =>
    cases vs with
    | nil => exact (Trace.ub _).mono fun _ _ h => h.2
    | cons v vs => exact Trace.silent (silent_onLib fun s h => K.onEv _ s h) (fun _ => ih vs) rfl

/-- The part of the record that belongs to one rule, given what the evaluations of `matcherResult`
are like. -/
def StepPart (exp : Str) (tokens : List Str) (rule : Rule)
    (V : Option Bool → List (Outcome Val) → Prop) (o : Option (Bool × Effect)) (l : List Event) : Prop :=
  (l = [] ∧ o = none) ∨ ∃ t c xs b, ruleText exp tokens rule = .ok t ∧
    l = (.text t :: if c = true then [.compiled t] else []) ++ xs.map .value ∧ V b xs ∧
    (o.isSome = true → b.isSome = true)

theorem trace_ruleStep {lib : ExprLib} (K : Kept lib I) (exp : Str) (tokens : List Str) (rule : Rule)
    {V : Option Bool → List (Outcome Val) → Prop}
    (hV : Trace I (fun b l => ∃ xs : List (Outcome Val), l = xs.map .value ∧ V b xs) (matcherResult (exprtk lib))) :
    Trace I (StepPart exp tokens rule V) (ruleStep (exprtk lib) exp tokens rule) := by
  refine Trace.ite _ ((Trace.throw _).mono fun o l h => Or.inl ⟨h.2, h.1⟩) ?_
  have h0 : StepPart exp tokens rule V none [] := Or.inl ⟨rfl, rfl⟩
  refine Trace.silent (silent_onLib fun s h => h) (fun _ => ?_) h0
  refine Trace.silent (silent_onLib fun s h => h) (fun _ => ?_) h0
  refine Trace.silent (trace_pushPolicy K _ _) (fun _ => ?_) h0
  refine Trace.bind (Trace.lift _) (Q' := fun t o l => ∃ (c : Bool) (xs : List (Outcome Val)) (b : Option Bool),
    l = (.text t :: if c = true then [.compiled t] else []) ++ xs.map .value ∧ V b xs ∧
      (o.isSome = true → b.isSome = true)) ?_ (fun l h => Or.inl ⟨h.2, rfl⟩) ?_
  · intro t
    refine Trace.bind (trace_eval K t) (Q' := fun _ o l => ∃ (xs : List (Outcome Val)) (b : Option Bool), l = xs.map .value ∧ V b xs ∧
      (o.isSome = true → b.isSome = true)) ?_ (fun l h => by simp at h) ?_
    · intro _
      refine Trace.bind hV (Q' := fun _ o l => l = []) ?_ (fun l ⟨xs, h, h'⟩ => ⟨xs, none, h, h', by simp⟩)
        (fun a o l l' ⟨xs, h, h'⟩ h2 => ⟨xs, some a, by simp [h, h2], h', by simp⟩)
      intro m
      exact Trace.silent ((Trace.lift _).mono fun _ _ h => h.2) (fun _ => (Trace.pure _).mono fun _ _ h => h.2) rfl
    · rintro a o l l' ⟨_, c, h⟩ ⟨xs, b, h', hv, hb⟩
      exact ⟨c, xs, b, by rw [h, h'], hv, hb⟩
  · rintro t o l l' ⟨ht, hl⟩ ⟨c, xs, b, h', hv, hb⟩
    refine Or.inr ⟨t, c, xs, b, ?_, by rw [hl, h']; rfl, hv, hb⟩
    cases hr : ruleText exp tokens rule with
    | ok t' => rw [hr] at ht; cases ht; rfl
    | throw e => rw [hr] at ht; cases ht
    | ub u => rw [hr] at ht; cases ht

omit [IterOrder] in
/-- A loop: one part for each rule looked at. -/
theorem trace_ruleLoop {S : Rule → Option (Bool × Effect) → List Event → Prop}
    {step : Rule → M Obj (Bool × Effect)} (h : ∀ r, Trace I (S r) (step r)) (expr : Str) (len : Nat)
    (rs : List Rule) : ∀ idx es ms last ix, Trace I (fun o l => ∃ parts : List (Rule × List Event),
      l = (parts.map Prod.snd).flatten ∧ parts.map Prod.fst <+: rs ∧ (∀ q ∈ parts, ∃ x, S q.1 x q.2) ∧
      (o.isSome = true → (rs ≠ [] → parts ≠ []) ∧ ∀ q ∈ parts, ∃ x, S q.1 (some x) q.2))
      (ruleLoop default step expr len rs idx es ms last ix) := by
  induction rs with
  | nil =>
    intro idx es ms last ix
    exact (Trace.pure _).mono fun o l h => ⟨[], by simp [h.2], by simp, by simp, by simp⟩
  | cons r rs ih =>
    intro idx es ms last ix
    refine Trace.bind (h r) (Q' := fun _ o l => ∃ parts : List (Rule × List Event),
      l = (parts.map Prod.snd).flatten ∧ parts.map Prod.fst <+: rs ∧ (∀ q ∈ parts, ∃ x, S q.1 x q.2) ∧
      (o.isSome = true → ∀ q ∈ parts, ∃ x, S q.1 (some x) q.2)) ?_
      (fun l hs => ⟨[(r, l)], by simp, by simp, by simpa using ⟨none, hs⟩, by simp⟩) ?_
    · intro me
      refine Trace.silent (f := (default : EffImpl Obj).merge _ _ _ _ _)
        (Trace.silent ((Trace.lift _).mono fun _ _ h => h.2) (fun _ => (Trace.pure _).mono fun _ _ h => h.2) rfl)
        (fun res => ?_) ⟨[], by simp, by simp, by simp, by simp⟩
      refine Trace.ite _ ((Trace.pure _).mono fun o l h => ⟨[], by simp [h.2], by simp, by simp, by simp⟩) ?_
      exact (ih _ _ _ _ _).mono fun o l ⟨parts, h1, h2, h3, h4⟩ => ⟨parts, h1, h2, h3, fun ho => (h4 ho).2⟩
    · rintro a o l l' hs ⟨parts, h1, h2, h3, h4⟩
      refine ⟨(r, l) :: parts, by simp [h1], by simpa using h2, ?_, fun ho => ⟨by simp, ?_⟩⟩
      · intro q hq
        rcases List.mem_cons.mp hq with rfl | hq
        · exact ⟨_, hs⟩
        · exact h3 q hq
      · intro q hq
        rcases List.mem_cons.mp hq with rfl | hq
        · exact ⟨_, hs⟩
        · exact h4 ho q hq

/-- As `Trace`, for programs that also have the explanation. -/
def TraceOn {α : Type} (I : LibObj → Prop) (Q : Option α → List Event → Prop) (f : M (CallSt Obj) α) :
    Prop :=
  ∀ s, I s.obj.1 → ∃ l, (f s).2.obj.2 = s.obj.2 ++ l ∧ I (f s).2.obj.1 ∧ Q (okOf (f s).1) l

omit [IterOrder] in
theorem Trace.on {f : M Obj α} (h : Trace I Q f) : TraceOn I Q (on f) := fun s hs => h s.obj hs

omit [IterOrder] in
theorem TraceOn.mono {Q' : Option α → List Event → Prop} {f : M (CallSt Obj) α} (h : TraceOn I Q f)
    (hq : ∀ o l, Q o l → Q' o l) : TraceOn I Q' f := fun s hs =>
  let ⟨l, h1, h2, h3⟩ := h s hs
  ⟨l, h1, h2, hq _ _ h3⟩

omit [IterOrder] in
theorem TraceOn.ite (c : Prop) [Decidable c] {f g : M (CallSt Obj) α} (h : c → TraceOn I Q f)
    (h' : ¬ c → TraceOn I Q g) : TraceOn I Q (if c then f else g) := by
  split
  · exact h ‹_›
  · exact h' ‹_›

omit [IterOrder] in
theorem TraceOn.pure (a : α) : TraceOn I (fun o l => o = some a ∧ l = []) (Pure.pure a) :=
  fun s hs => ⟨[], by simp, hs, rfl, rfl⟩

omit [IterOrder] in
theorem TraceOn.throw (e : Exn) : TraceOn I (fun (o : Option α) l => o = none ∧ l = []) (M.throw e) :=
  fun s hs => ⟨[], by simp, hs, rfl, rfl⟩

omit [IterOrder] in
theorem TraceOn.ub (e : UB) : TraceOn I (fun (o : Option α) l => o = none ∧ l = []) (M.ub e) :=
  fun s hs => ⟨[], by simp, hs, rfl, rfl⟩

omit [IterOrder] in
theorem TraceOn.bind {Q' : α → Option β → List Event → Prop} {R : Option β → List Event → Prop}
    {f : M (CallSt Obj) α} {g : α → M (CallSt Obj) β} (hf : TraceOn I Q f)
    (hg : ∀ a, TraceOn I (Q' a) (g a)) (hn : ∀ l, Q none l → R none l)
    (hs : ∀ a o l l', Q (some a) l → Q' a o l' → R o (l ++ l')) : TraceOn I R (f >>= g) := by
  intro s hI
  obtain ⟨l, h1, h2, h3⟩ := hf s hI
  simp only [M.bind_run]
  rcases hfs : f s with ⟨o, t⟩
  rw [hfs] at h1 h2 h3
  cases o with
  | ok a =>
    obtain ⟨l', h4, h5, h6⟩ := hg a t h2
    simp only at h1 h2 h3
    exact ⟨l ++ l', by rw [h4, h1, List.append_assoc], h5, hs a _ _ _ h3 h6⟩
  | throw e => exact ⟨l, h1, h2, hn l h3⟩
  | ub u => exact ⟨l, h1, h2, hn l h3⟩

omit [IterOrder] in
theorem TraceOn.silent {f : M (CallSt Obj) α} {g : α → M (CallSt Obj) β}
    {R : Option β → List Event → Prop} (hf : TraceOn I (fun o l => l = [] ∧ ∀ a, o = some a → Q (some a) []) f)
    (hg : ∀ a, Q (some a) [] → TraceOn I R (g a)) (hn : R none []) : TraceOn I R (f >>= g) := by
  intro s hI
  obtain ⟨l, h1, h2, h3, h4⟩ := hf s hI
  simp only [M.bind_run]
  rcases hfs : f s with ⟨o, t⟩
  rw [hfs] at h1 h2 h4
  subst h3
  cases o with
  | ok a =>
    obtain ⟨l', h5, h6, h7⟩ := hg a (h4 a rfl) t h2
    simp only [List.append_nil] at h1
    exact ⟨l', by rw [h5, h1], h6, h7⟩
  | throw e => exact ⟨[], h1, h2, hn⟩
  | ub u => exact ⟨[], h1, h2, hn⟩

omit [IterOrder] in
theorem trace_need (m : Model) (sec t : Str) :
    TraceOn I (fun o l => l = [] ∧ ∀ a, o = some a → m.find sec t = some a)
      (needAssertion m sec t) := by
  simp only [needAssertion]
  cases m.find sec t with
  | none => exact (TraceOn.ub _).mono fun o l h => ⟨h.2, by simp [h.1]⟩
  | some a => exact (TraceOn.pure _).mono fun o l h => ⟨h.2, by simp [h.1]⟩

omit [IterOrder] in
theorem trace_finish (rules : List Rule) (res : Option Effect × Option (Option Nat)) :
    TraceOn I (fun _ l => l = []) (finish rules res) := by
  obtain ⟨x, ix⟩ := res
  have hx : TraceOn I (fun _ l => l = []) (match x with
      | none => M.ub .uninit
      | some eff => (Pure.pure (decide (eff = .allow)) : M (CallSt Obj) Bool)) := by
    cases x
    · exact (TraceOn.ub _).mono fun _ _ h => h.2
    · exact (TraceOn.pure _).mono fun _ _ h => h.2
  cases ix with
  | none => exact (TraceOn.ub _).mono fun _ _ h => h.2
  | some i =>
    cases i with
    | none => exact hx
    | some i =>
      simp only [finish]
      cases rules[i]? with
      | none => exact hx
      | some r =>
        exact TraceOn.silent (Q := fun _ _ => True) (fun s hs => ⟨[], by simp, hs, rfl, by simp⟩) (fun _ _ => hx) rfl

/-- The rules a request may look at. -/
theorem trace_select {lib : ExprLib} (m : Model) : Trace I
    (fun o l => l = [] ∧ ∀ rules, o = some rules → ∃ p, m.find c!"p" c!"p" = some p ∧
      rules.length ≤ p.policy.items.length ∧ (p.policy.hash = false → rules = p.policy.items))
    (selectPolicies (exprtk lib) m) := by
  simp only [selectPolicies]
  cases hp : m.find c!"p" c!"p" with
  | none => exact (Trace.ub _).mono fun o l h => ⟨h.2, by simp [h.1]⟩
  | some p =>
    simp only
    split
    · rename_i hh
      cases m.find c!"r" c!"r" with
      | none => exact (Trace.ub _).mono fun o l h => ⟨h.2, by simp [h.1]⟩
      | some r =>
        refine Trace.silent (silent_onLib fun s h => h) (fun vals => ?_) ⟨rfl, by simp⟩
        refine Trace.silent ((Trace.lift _).mono fun _ _ h => h.2) (fun req => ?_) ⟨rfl, by simp⟩
        refine (Trace.pure _).mono fun o l h => ⟨h.2, fun rules hr => ⟨p, rfl, ?_, by simp [hh]⟩⟩
        rw [h.1] at hr
        cases hr
        split
        · rename_i hc
          cases hi : p.policy.items with
          | nil => simp [Policies.contains, hi] at hc
          | cons a b => simp
        · simp
    · exact (Trace.pure _).mono fun o l h => ⟨h.2, fun rules hr => ⟨p, rfl, by rw [h.1] at hr; cases hr; simp,
        fun _ => by rw [h.1] at hr; cases hr; rfl⟩⟩

/-- The text of the matcher of a request. -/
def MatcherOf (m : Model) (matcher exp : Str) : Prop :=
  (matcher ≠ [] ∧ exp = matcher) ∨ (matcher = [] ∧ ∃ a, m.find c!"m" c!"m" = some a ∧ exp = a.value)

/-- What a request adds to the record: a part for each rule looked at, or one text if there is no
rule. -/
def RequestPart (m : Model) (matcher : Str) (V : Option Bool → List (Outcome Val) → Prop)
    (o : Option Bool) (l : List Event) : Prop :=
  (l = [] ∧ o = none) ∨ ∃ exp p rules, MatcherOf m matcher exp ∧ m.find c!"p" c!"p" = some p ∧
    rules.length ≤ p.policy.items.length ∧ (p.policy.hash = false → rules = p.policy.items) ∧
    ((rules ≠ [] ∧ ∃ parts : List (Rule × List Event), l = (parts.map Prod.snd).flatten ∧
        parts.map Prod.fst <+: rules ∧ (∀ q ∈ parts, ∃ x, StepPart exp p.tokens q.1 V x q.2) ∧
        (o.isSome = true → parts ≠ [] ∧ ∀ q ∈ parts, ∃ x, StepPart exp p.tokens q.1 V (some x) q.2)) ∨
      (rules = [] ∧ hasEval exp = false ∧ ∃ (c : Bool) (xs : List (Outcome Val)),
        l = (.text exp :: if c = true then [.compiled exp] else []) ++ xs.map .value ∧ xs.length ≤ 1))

theorem trace_loadGs {lib : ExprLib} (K : Kept lib I) (l : List (Str × Assertion)) :
    Trace I (fun _ l => l = []) (loadGs (exprtk lib) l) := by
  induction l with
  | nil => exact (Trace.pure _).mono fun _ _ h => h.2
  | cons a l ih => exact Trace.silent (silent_onLib fun s h => K.onEv _ s h) (fun _ => ih) rfl

theorem trace_empty {lib : ExprLib} (K : Kept lib I) (exp : Str) (tokens : List Str) (eff : Str) :
    TraceOn I (fun o l => (l = [] ∧ o = none) ∨ (hasEval exp = false ∧ ∃ (c : Bool) (xs : List (Outcome Val)),
        l = (.text exp :: if c = true then [.compiled exp] else []) ++ xs.map .value ∧ xs.length ≤ 1))
      (enforceEmpty (exprtk lib) default exp tokens eff) := by
  refine TraceOn.ite _ (fun _ => (TraceOn.throw _).mono fun o l h => Or.inl ⟨h.2, h.1⟩) fun he => ?_
  have hsil : ∀ {α : Type} {f : M Obj α}, Trace I (fun _ l => l = []) f →
      TraceOn I (fun o l => l = [] ∧ ∀ a, o = some a → True) (on f) :=
    fun h => (Trace.on h).mono fun o l h => ⟨h, by simp⟩
  refine TraceOn.silent (Q := fun _ _ => True) (hsil (silent_onLib fun s h => h)) (fun _ _ => ?_) (Or.inl ⟨rfl, rfl⟩)
  refine TraceOn.silent (Q := fun _ _ => True) (hsil (silent_onLib fun s h => h)) (fun _ _ => ?_) (Or.inl ⟨rfl, rfl⟩)
  refine TraceOn.silent (Q := fun _ _ => True) (hsil (trace_pushPolicy K _ _)) (fun _ _ => ?_) (Or.inl ⟨rfl, rfl⟩)
  refine TraceOn.bind (Trace.on (trace_eval K exp)) (Q' := fun _ _ l => ∃ xs : List (Outcome Val),
    l = xs.map .value ∧ xs.length ≤ 1) ?_ (fun l h => by simp at h) ?_
  · intro valid
    refine TraceOn.ite _ (fun _ => (TraceOn.pure _).mono fun o l h => ⟨[], by simp [h.2], by simp⟩) fun _ => ?_
    refine TraceOn.bind (Trace.on (trace_truth K)) (Q' := fun _ _ l => l = []) ?_
      (fun l ⟨x, h⟩ => ⟨[x], h, by simp⟩) (fun a o l l' ⟨x, h⟩ h' => ⟨[x], by simp [h, h'], by simp⟩)
    intro v
    refine TraceOn.silent (Q := fun _ _ => True) (hsil ?_) (fun res _ => trace_finish _ _) rfl
    exact Trace.silent ((Trace.lift _).mono fun _ _ h => h.2) (fun _ => (Trace.pure _).mono fun _ _ h => h.2) rfl
  · rintro a o l l' ⟨_, c, h⟩ ⟨xs, h', hx⟩
    exact Or.inr ⟨by simpa using he, c, xs, by rw [h, h'], hx⟩

theorem trace_request {lib : ExprLib} (K : Kept lib I) {V : Option Bool → List (Outcome Val) → Prop}
    (hV : Trace I (fun b l => ∃ xs : List (Outcome Val), l = xs.map .value ∧ V b xs)
      (matcherResult (exprtk lib))) (m : Model) (matcher : Str) :
    TraceOn I (RequestPart m matcher V) (mEnforce (exprtk lib) default m true matcher) := by
  have hsil : ∀ {α : Type} {f : M Obj α}, Trace I (fun _ l => l = []) f →
      TraceOn I (fun o l => l = [] ∧ ∀ a, o = some a → True) (on f) :=
    fun h => (Trace.on h).mono fun o l h => ⟨h, by simp⟩
  have h0 : RequestPart m matcher V none [] := Or.inl ⟨rfl, rfl⟩
  have htail : ∀ exp, MatcherOf m matcher exp → TraceOn I (RequestPart m matcher V) (do
      let _ ← needAssertion m c!"r" c!"r"
      let p ← needAssertion m c!"p" c!"p"
      let rules ← on (selectPolicies (exprtk lib) m)
      let e ← needAssertion m c!"e" c!"e"
      if rules ≠ [] then do
        let res ← on (runRules default (ruleStep (exprtk lib) exp p.tokens) e.value rules)
        finish rules res
      else enforceEmpty (exprtk lib) default exp p.tokens e.value : M (CallSt Obj) Bool) := by
    intro exp hexp
    refine TraceOn.silent (Q := fun o _ => ∀ a, o = some a → m.find c!"r" c!"r" = some a)
      ((trace_need m _ _).mono fun o l h => ⟨h.1, fun a ha b hb => by
        cases hb; exact h.2 a ha⟩) (fun _ _ => ?_) h0
    refine TraceOn.silent (Q := fun o _ => ∀ a, o = some a → m.find c!"p" c!"p" = some a)
      ((trace_need m _ _).mono fun o l h => ⟨h.1, fun a ha b hb => by
        cases hb; exact h.2 a ha⟩) (fun p hp => ?_) h0
    refine TraceOn.silent (Q := fun o _ => ∀ rules, o = some rules → ∃ p, m.find c!"p" c!"p" = some p ∧
      rules.length ≤ p.policy.items.length ∧ (p.policy.hash = false → rules = p.policy.items))
      ((Trace.on (trace_select m)).mono fun o l h => ⟨h.1, fun a ha b hb => by
        cases hb; exact h.2 a ha⟩) (fun rules hr => ?_) h0
    refine TraceOn.silent (Q := fun _ _ => True)
      ((trace_need m _ _).mono fun o l h => ⟨h.1, fun _ _ => trivial⟩) (fun e _ => ?_) h0
    obtain ⟨p', hp', hlen, hvec⟩ := hr rules rfl
    have hpp := hp p rfl
    rw [hpp] at hp'
    cases hp'
    refine TraceOn.ite _ (fun hne => ?_) (fun he => ?_)
    · refine TraceOn.bind (Trace.on (trace_ruleLoop (fun r => trace_ruleStep K exp p.tokens r hV) _ _ _ _ _ _ _ _))
        (Q' := fun _ _ l => l = []) (fun _ => trace_finish _ _) ?_ ?_
      · rintro l ⟨parts, h1, h2, h3, _⟩
        exact Or.inr ⟨exp, p, rules, hexp, hpp, hlen, hvec, Or.inl ⟨hne, parts, h1, h2, h3, by simp⟩⟩
      · rintro a o l l' ⟨parts, h1, h2, h3, h4⟩ rfl
        refine Or.inr ⟨exp, p, rules, hexp, hpp, hlen, hvec, Or.inl ⟨hne, parts, by simpa using h1, h2, h3,
          fun _ => ⟨(h4 rfl).1 hne, (h4 rfl).2⟩⟩⟩
    · refine (trace_empty K _ _ _).mono ?_
      rintro o l (h | ⟨h1, h2⟩)
      · exact Or.inl h
      · exact Or.inr ⟨exp, p, rules, hexp, hpp, hlen, hvec, Or.inr ⟨by simpa using he, h1, h2⟩⟩
  refine TraceOn.silent (Q := fun _ _ => True) (fun s hs => ⟨[], by simp, hs, rfl, by simp⟩) (fun _ _ => ?_) h0
  rw [if_neg (by simp)]
  refine TraceOn.silent (Q := fun _ _ => True) (hsil (silent_onLib fun s h => K.onEv _ s h)) (fun _ _ => ?_) h0
  refine TraceOn.silent (Q := fun _ _ => True) (hsil (trace_loadGs K _)) (fun _ _ => ?_) h0
  split
  · rename_i hm
    refine TraceOn.silent (Q := fun o _ => ∀ a, o = some a → m.find c!"m" c!"m" = some a)
      ((trace_need m _ _).mono fun o l h => ⟨h.1, fun a ha b hb => by
        cases hb; exact h.2 a ha⟩) (fun a ha => htail a.value (Or.inr ⟨hm, a, ha a rfl, rfl⟩)) h0
  · rename_i hm
    exact htail matcher (Or.inl ⟨hm, rfl⟩)

end Effort
end Custom
end Casbin
