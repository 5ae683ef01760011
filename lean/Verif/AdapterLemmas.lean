import Verif.Adapter
import Verif.ModelLemmas
import Verif.Props.Strings

/-!
# Policy text

What the lines of a policy text say, described without the functions that read them, and the lemmas
relating the description to `loadPolicyLine` and `policyText`.
-/

namespace Casbin
namespace AdapterProps

/-! ## Specification -/

/-- `v` is `s` without the blanks around it. -/
def Trimmed (s v : Str) : Prop :=
  (∃ a b, (∀ c ∈ a, Space c) ∧ (∀ c ∈ b, Space c) ∧ s = a ++ v ++ b) ∧
  (∀ c, v.head? = some c → ¬ Space c) ∧ (∀ c, v.getLast? = some c → ¬ Space c)

/-- The texts written one after the other with `c` between them. -/
def between (c : Char) : List Str → Str
  | [] => []
  | [f] => f
  | f :: g :: fs => f ++ c :: between c (g :: fs)

/-- `fs` are the pieces of `s` between the characters `c`. -/
def Pieces (c : Char) (s : Str) (fs : List Str) : Prop :=
  fs ≠ [] ∧ (∀ f ∈ fs, c ∉ f) ∧ s = between c fs

/-- What a line of a policy text says: nothing, when it is blank or a comment; otherwise a policy
type and a rule. -/
inductive LineSays : Str → Option (Str × Rule) → Prop
  | blank {line : Str} : Trimmed line [] → LineSays line none
  | comment {line t : Str} : Trimmed line ('#' :: t) → LineSays line none
  | rule {line t f pt : Str} {fs : List Str} {vs : Rule} : Trimmed line t → t ≠ [] →
      t.head? ≠ some '#' → Pieces ',' line (f :: fs) → Trimmed f pt →
      List.Forall₂ Trimmed fs vs → LineSays line (some (pt, vs))

/-- What a policy text says: the rules of its lines, in order. -/
def TextSays (text : Str) (rules : List (Str × Rule)) : Prop :=
  ∃ lines meant, Pieces '\n' text lines ∧ List.Forall₂ LineSays lines meant ∧
    rules = meant.filterMap id

/-- No line reaches the bound of `Split`. -/
def ShortLines (text : Str) : Prop :=
  ∀ a l b, text = a ++ l ++ b → '\n' ∉ l → l.length < splitLARGE

/-- The rules of one policy type. -/
def rulesOf (rules : List (Str × Rule)) (pt : Str) : List Rule :=
  (rules.filter (fun x => decide (x.1 = pt))).map Prod.snd

/-- The model `m'` is `m` with the rules added: to each policy type, which must stand in the section
named by its first character, its rules in order (set storage keeps one of each). -/
def Extended (m m' : Model) (rules : List (Str × Rule)) : Prop :=
  ∀ sec pt,
    (m.find sec pt = none → m'.find sec pt = none) ∧
    ∀ a, m.find sec pt = some a → ∃ P, m'.find sec pt = some { a with policy := P } ∧
      P.hash = a.policy.hash ∧
      (P.hash = false → P.items = a.policy.items ++
        (if sec = pt.take 1 then rulesOf rules pt else [])) ∧
      (∀ r, r ∈ P.items ↔ r ∈ a.policy.items ∨ (sec = pt.take 1 ∧ r ∈ rulesOf rules pt)) ∧
      (P.hash = true → a.policy.items.Nodup → P.items.Nodup) ∧
      (sec ≠ pt.take 1 ∨ rulesOf rules pt = [] → P = a.policy)

/-! ## Trimming -/

theorem trim_of_trimmed {s v : Str} (h : Trimmed s v) : trim s = v := by
  obtain ⟨⟨a, b, ha, hb, rfl⟩, h1, h2⟩ := h
  exact C66_trim_unique a v b ha hb h1 h2

theorem trimmed_trim (s : Str) : Trimmed s (trim s) := by
  obtain ⟨a, b, ha, hb, h⟩ := C66_trim_decomp s
  exact ⟨⟨a, b, ha, hb, h⟩, C66_trim_ends s⟩

theorem trimmed_iff {s v : Str} : Trimmed s v ↔ trim s = v :=
  ⟨trim_of_trimmed, fun h => h ▸ trimmed_trim s⟩

theorem trim_cons_blank {x : Char} (hx : isBlank x = true) (s : Str) : trim (x :: s) = trim s := by
  obtain ⟨a, b, ha, hb, h⟩ := C66_trim_decomp s
  apply trim_of_trimmed
  refine ⟨⟨x :: a, b, ?_, hb, ?_⟩, C66_trim_ends s⟩
  · intro c hc
    rcases List.mem_cons.mp hc with rfl | hc
    · exact space_iff.mpr hx
    · exact ha c hc
  · conv_lhs => rw [h]
    simp

theorem trim_snoc_blank {x : Char} (hx : isBlank x = true) (s : Str) : trim (s ++ [x]) = trim s := by
  obtain ⟨a, b, ha, hb, h⟩ := C66_trim_decomp s
  apply trim_of_trimmed
  refine ⟨⟨a, b ++ [x], ha, ?_, ?_⟩, C66_trim_ends s⟩
  · intro c hc
    rcases List.mem_append.mp hc with hc | hc
    · exact hb c hc
    · simp at hc; subst hc; exact space_iff.mpr hx
  · conv_lhs => rw [h]
    simp

theorem forall₂_trimmed {fs : List Str} {vs : Rule} (h : List.Forall₂ Trimmed fs vs) :
    fs.map trim = vs := by
  induction h with
  | nil => rfl
  | cons h _ ih => simp [trim_of_trimmed h, ih]

/-! ## Splitting -/

theorem findSub_char (c : Char) (f rest : Str) (h : c ∉ f) :
    findSub [c] (f ++ c :: rest) = some f.length := by
  induction f with
  | nil => simp [findSub]
  | cons x xs ih =>
    simp only [List.mem_cons, not_or] at h
    simp only [List.cons_append, findSub]
    have hp : [c].isPrefixOf (x :: (xs ++ c :: rest)) = false := by
      simp [List.isPrefixOf, h.1]
    rw [hp, ih h.2]
    simp

theorem findSub_char_none {c : Char} {f : Str} (h : c ∉ f) : findSub [c] f = none := by
  rw [findSub_none]
  rintro ⟨a, b, rfl⟩
  simp at h

theorem between_cons (c : Char) (f : Str) {fs : List Str} (h : fs ≠ []) :
    between c (f :: fs) = f ++ c :: between c fs := by
  cases fs with
  | nil => exact absurd rfl h
  | cons g gs => rfl

theorem splitLoop_between (c : Char) : ∀ (fs : List Str) (n : Nat), fs ≠ [] → (∀ f ∈ fs, c ∉ f) →
    fs.length ≤ n + 1 → splitLoop [c] n (between c fs) = fs := by
  intro fs
  induction fs with
  | nil => intro n h; exact absurd rfl h
  | cons f fs ih =>
    intro n _ hc hn
    cases fs with
    | nil =>
      cases n with
      | zero => rfl
      | succ n => simp [splitLoop, between, findSub_char_none (hc f (by simp))]
    | cons g gs =>
      cases n with
      | zero => simp at hn
      | succ n =>
        simp only [between, splitLoop]
        rw [findSub_char c f _ (hc f (by simp))]
        simp only [List.length_singleton]
        have e1 : (f ++ c :: between c (g :: gs)).take f.length = f := by simp
        have e2 : (f ++ c :: between c (g :: gs)).drop (f.length + 1) = between c (g :: gs) := by
          have : f ++ c :: between c (g :: gs) = (f ++ [c]) ++ between c (g :: gs) := by simp
          rw [this, List.drop_left' (by simp)]
        rw [e1, e2, ih n (by simp) (fun x hx => hc x (by simp [hx])) (by simp at hn ⊢; omega)]

theorem length_between (c : Char) : ∀ fs : List Str, fs.length ≤ (between c fs).length + 1 := by
  intro fs
  induction fs with
  | nil => simp
  | cons f fs ih =>
    cases fs with
    | nil => simp
    | cons g gs => simp only [between, List.length_append, List.length_cons] at ih ⊢; omega

theorem split_pieces {c : Char} {s : Str} {fs : List Str} (h : Pieces c s fs)
    (hs : s.length < splitLARGE) : split s [c] = fs := by
  obtain ⟨h1, h2, rfl⟩ := h
  unfold split
  apply splitLoop_between c fs _ h1 h2
  have := length_between c fs
  simp only [if_true]
  omega

theorem pieces_exist (c : Char) : ∀ s : Str, ∃ fs, Pieces c s fs := by
  intro s
  induction s with
  | nil => exact ⟨[[]], by simp, by simp, rfl⟩
  | cons x s ih =>
    obtain ⟨fs, h1, h2, h3⟩ := ih
    cases fs with
    | nil => exact absurd rfl h1
    | cons f fs =>
      by_cases hx : x = c
      · refine ⟨[] :: f :: fs, by simp, ?_, ?_⟩
        · intro g hg
          rcases List.mem_cons.mp hg with rfl | hg
          · simp
          · exact h2 g hg
        · rw [between, ← h3, hx]; rfl
      · refine ⟨(x :: f) :: fs, by simp, ?_, ?_⟩
        · intro g hg
          rcases List.mem_cons.mp hg with rfl | hg
          · simp only [List.mem_cons, not_or]
            exact ⟨fun e => hx e.symm, h2 f (by simp)⟩
          · exact h2 g (by simp [hg])
        · rw [h3]
          cases fs with
          | nil => rfl
          | cons g gs => rfl

theorem pieces_split (c : Char) (s : Str) (hs : s.length < splitLARGE) :
    Pieces c s (split s [c]) := by
  obtain ⟨fs, h⟩ := pieces_exist c s
  rw [split_pieces h hs]
  exact h

/-- Leading blanks do not change the trimmed pieces. -/
theorem pieces_cons_blank {c x : Char} (hx : x ≠ c) (hb : isBlank x = true) {s : Str}
    {fs : List Str} (h : Pieces c (x :: s) fs) :
    ∃ gs, Pieces c s gs ∧ gs.map trim = fs.map trim := by
  obtain ⟨h1, h2, h3⟩ := h
  cases fs with
  | nil => exact absurd rfl h1
  | cons f fs =>
    cases f with
    | nil =>
      cases fs with
      | nil => simp [between] at h3
      | cons g gs =>
        simp only [between, List.nil_append, List.cons.injEq] at h3
        exact absurd h3.1 hx
    | cons y f =>
      have hy : y = x ∧ s = between c (f :: fs) := by
        cases fs with
        | nil => simp only [between, List.cons.injEq] at h3 ⊢; exact ⟨h3.1.symm, h3.2⟩
        | cons g gs =>
          simp only [between, List.cons_append, List.cons.injEq] at h3 ⊢
          exact ⟨h3.1.symm, h3.2⟩
      obtain ⟨rfl, hs⟩ := hy
      refine ⟨f :: fs, ⟨by simp, ?_, hs⟩, ?_⟩
      · intro g hg
        rcases List.mem_cons.mp hg with rfl | hg
        · intro hc; exact h2 (y :: g) (by simp) (by simp [hc])
        · exact h2 g (by simp [hg])
      · simp [trim_cons_blank hb]

/-- Trailing blanks do not change the trimmed pieces. -/
theorem pieces_snoc_blank {c x : Char} (hx : x ≠ c) (hb : isBlank x = true) : ∀ {fs : List Str}
    {s : Str}, Pieces c (s ++ [x]) fs → ∃ gs, Pieces c s gs ∧ gs.map trim = fs.map trim := by
  intro fs
  induction fs with
  | nil => intro s h; exact absurd rfl h.1
  | cons f fs ih =>
    intro s h
    obtain ⟨_, h2, h3⟩ := h
    cases fs with
    | nil =>
      simp only [between] at h3
      subst h3
      refine ⟨[s], ⟨by simp, ?_, rfl⟩, by simp [trim_snoc_blank hb]⟩
      intro g hg
      simp only [List.mem_singleton] at hg
      subst hg
      intro hc
      exact h2 (g ++ [x]) (by simp) (by simp [hc])
    | cons g gs =>
      simp only [between] at h3
      -- the last character of the rest is `x`
      have hne : between c (g :: gs) ≠ [] := by
        intro he
        rw [he] at h3
        have := congrArg List.getLast? h3
        simp at this
        exact hx this
      obtain ⟨r, y, hr⟩ : ∃ r y, between c (g :: gs) = r ++ [y] :=
        ⟨_, _, (List.dropLast_append_getLast hne).symm⟩
      rw [hr] at h3
      have h4 : s ++ [x] = (f ++ c :: r) ++ [y] := by rw [h3]; simp
      obtain ⟨e1, e2⟩ := List.append_inj' h4 rfl
      simp only [List.cons.injEq, and_true] at e2
      subst e2
      obtain ⟨gs', hg1, hg2⟩ := ih (s := r) ⟨by simp, fun f hf => h2 f (by simp [hf]), hr.symm⟩
      refine ⟨f :: gs', ⟨by simp, ?_, ?_⟩, by simp only [List.map_cons, hg2]⟩
      · intro z hz
        rcases List.mem_cons.mp hz with rfl | hz
        · exact h2 z (by simp)
        · exact hg1.2.1 z hz
      · rw [between_cons c f hg1.1, e1, ← hg1.2.2]

theorem pieces_drop_blanks {c : Char} (hc : isBlank c = false) (a b core : Str)
    (ha : ∀ x ∈ a, isBlank x = true) (hb : ∀ x ∈ b, isBlank x = true) {fs : List Str}
    (h : Pieces c (a ++ core ++ b) fs) : ∃ gs, Pieces c core gs ∧ gs.map trim = fs.map trim := by
  have ne : ∀ x, isBlank x = true → x ≠ c := by
    intro x hx he; subst he; rw [hx] at hc; simp at hc
  induction a generalizing fs with
  | cons x a ih =>
    obtain ⟨gs, h1, h2⟩ := pieces_cons_blank (ne x (ha x (by simp))) (ha x (by simp))
      (s := a ++ core ++ b) (by simpa using h)
    obtain ⟨gs', h3, h4⟩ := ih (fun y hy => ha y (by simp [hy])) h1
    exact ⟨gs', h3, h4.trans h2⟩
  | nil =>
    rw [List.nil_append] at h
    have key : ∀ (b : Str), (∀ x ∈ b, isBlank x = true) → ∀ {fs : List Str},
        Pieces c (core ++ b.reverse) fs → ∃ gs, Pieces c core gs ∧ gs.map trim = fs.map trim := by
      intro b
      induction b with
      | nil => intro _ fs h; exact ⟨fs, by simpa using h, rfl⟩
      | cons x b ih =>
        intro hb fs h
        obtain ⟨gs, h1, h2⟩ := pieces_snoc_blank (ne x (hb x (by simp))) (hb x (by simp))
          (s := core ++ b.reverse) (by simpa using h)
        obtain ⟨gs', h3, h4⟩ := ih (fun y hy => hb y (by simp [hy])) h1
        exact ⟨gs', h3, h4.trans h2⟩
    exact key b.reverse (fun x hx => hb x (by simpa using hx)) (by simpa using h)

/-- The trimmed pieces of a line are those of the trimmed line. -/
theorem trimAll_split_trim (line : Str) (hl : line.length < splitLARGE) :
    trimAll (split (trim line) c!",") = trimAll (split line c!",") := by
  obtain ⟨a, b, ha, hb, h⟩ := trim_decomp line
  have hp := pieces_split ',' line hl
  conv at hp => arg 2; rw [h]
  obtain ⟨gs, h1, h2⟩ := pieces_drop_blanks (by decide) a b (trim line) ha hb hp
  have hlen : (trim line).length ≤ line.length := by
    have := congrArg List.length h
    simp only [List.length_append] at this
    omega
  rw [split_pieces h1 (by omega)]
  exact h2

/-! ## Lines -/

/-- Add one rule to the model. -/
def addRule (m : Model) (x : Str × Rule) : Model :=
  match m.find (x.1.take 1) x.1 with
  | some a => m.put (x.1.take 1) x.1 { a with policy := a.policy.emplace x.2 }
  | none => m

/-- What a line does to the model. -/
def step (o : Option (Str × Rule)) (m : Model) : Model :=
  match o with
  | none => m
  | some x => addRule m x

theorem loadPolicyLine_none {line : Str} (h : line = [] ∨ line.head? = some '#') (m : Model) :
    loadPolicyLine line m = (.ok (), m) := by
  unfold loadPolicyLine
  rw [if_pos h]; rfl

theorem loadPolicyLine_rule {line : Str} (h1 : line ≠ []) (h2 : line.head? ≠ some '#') {m : Model}
    {pt : Str} {vs : Rule} (hs : trimAll (split line c!",") = pt :: vs)
    (hd : m.find (pt.take 1) pt ≠ none) :
    loadPolicyLine line m = (.ok (), addRule m (pt, vs)) := by
  unfold loadPolicyLine
  rw [if_neg (by simp [h1, h2]), hs]
  cases hf : m.find (pt.take 1) pt with
  | none => exact absurd hf hd
  | some a =>
    simp only [addRule, hf]
    rw [M.bind_run_ok (Model.at_run hf), Model.setPolicy_run hf]

theorem lineSays_file {line : Str} {o : Option (Str × Rule)} (h : LineSays line o)
    (hl : line.length < splitLARGE) (m : Model) (hd : ∀ x, o = some x → m.find (x.1.take 1) x.1 ≠ none) :
    loadPolicyLine (trim line) m = (.ok (), step o m) := by
  cases h with
  | blank h => rw [trim_of_trimmed h]; exact loadPolicyLine_none (Or.inl rfl) m
  | comment h => rw [trim_of_trimmed h]; exact loadPolicyLine_none (Or.inr rfl) m
  | rule h1 h2 h3 h4 h5 h6 =>
    rename_i t f pt fs vs
    have hs : trimAll (split (trim line) c!",") = pt :: vs := by
      rw [trimAll_split_trim line hl, split_pieces h4 hl, trimAll, List.map_cons,
        trim_of_trimmed h5, forall₂_trimmed h6]
    rw [trim_of_trimmed h1] at hs ⊢
    exact loadPolicyLine_rule h2 h3 hs (hd _ rfl)

theorem lineSays_string {line : Str} {o : Option (Str × Rule)} (h : LineSays line o)
    (hl : line.length < splitLARGE) (hb : o = none → line = [] ∨ line.head? = some '#') (m : Model)
    (hh : line.head? = some '#' → o = none)
    (hd : ∀ x, o = some x → m.find (x.1.take 1) x.1 ≠ none) :
    loadPolicyLine line m = (.ok (), step o m) := by
  cases h with
  | blank h => exact loadPolicyLine_none (hb rfl) m
  | comment h => exact loadPolicyLine_none (hb rfl) m
  | rule h1 h2 h3 h4 h5 h6 =>
    rename_i t f pt fs vs
    have hs : trimAll (split line c!",") = pt :: vs := by
      rw [split_pieces h4 hl, trimAll, List.map_cons, trim_of_trimmed h5, forall₂_trimmed h6]
    refine loadPolicyLine_rule ?_ ?_ hs (hd _ rfl)
    · rintro rfl
      rw [← trim_of_trimmed h1] at h2
      exact h2 rfl
    · intro h
      exact absurd (hh h) (by simp)

theorem find_addRule (m : Model) (x : Str × Rule) (s t : Str) :
    (addRule m x).find s t = match m.find s t with
      | none => none
      | some a => if s = x.1.take 1 ∧ t = x.1 then some { a with policy := a.policy.emplace x.2 }
          else some a := by
  unfold addRule
  cases hf : m.find (x.1.take 1) x.1 with
  | none =>
    simp only
    cases ht : m.find s t with
    | none => rfl
    | some a =>
      simp only
      rw [if_neg]
      rintro ⟨rfl, rfl⟩
      rw [ht] at hf; simp at hf
  | some a =>
    simp only
    rw [Model.find_put]
    split
    · rename_i he
      obtain ⟨rfl, rfl⟩ := he
      simp [hf]
    · rename_i he
      cases m.find s t with
      | none => rfl
      | some b =>
        simp only
        rw [if_neg (fun h => he ⟨h.1.symm, h.2.symm⟩)]

theorem addRule_defined {m : Model} (x : Str × Rule) {s t : Str} (h : m.find s t ≠ none) :
    (addRule m x).find s t ≠ none := by
  rw [find_addRule]
  cases hf : m.find s t with
  | none => exact absurd hf h
  | some a => simp only; split <;> simp

/-- Add rules to an assertion. -/
def addTo (a : Assertion) (rs : List Rule) : Assertion :=
  { a with policy := Model.emplaceList a.policy rs }

theorem find_addRules (rules : List (Str × Rule)) : ∀ (m : Model) (s t : Str),
    (rules.foldl addRule m).find s t = match m.find s t with
      | none => none
      | some a => some (addTo a (if s = t.take 1 then rulesOf rules t else [])) := by
  induction rules with
  | nil =>
    intro m s t
    simp only [List.foldl_nil]
    cases m.find s t with
    | none => rfl
    | some a => simp [rulesOf, addTo, Model.emplaceList]
  | cons x rules ih =>
    intro m s t
    simp only [List.foldl_cons]
    rw [ih, find_addRule]
    cases m.find s t with
    | none => rfl
    | some a =>
      simp only
      by_cases ht : t = x.1
      · subst ht
        by_cases hs : s = x.1.take 1
        · subst hs
          simp [rulesOf, addTo, Model.emplaceList]
        · simp [hs, addTo]
      · have : ¬ x.1 = t := fun e => ht e.symm
        simp [ht, rulesOf, addTo, this]

theorem nodup_emplaceList (rs : List Rule) : ∀ (P : Policies), P.hash = true → P.items.Nodup →
    (Model.emplaceList P rs).items.Nodup := by
  induction rs with
  | nil => intro P _ h; exact h
  | cons r rs ih =>
    intro P hh hn
    have : Model.emplaceList P (r :: rs) = Model.emplaceList (P.emplace r) rs := rfl
    rw [this]
    apply ih
    · rw [Policies.emplace_hash, hh]
    · unfold Policies.emplace
      rw [if_pos hh]
      split
      · exact hn
      · rename_i hr
        simp only
        rw [List.nodup_append]
        refine ⟨hn, by simp, ?_⟩
        intro a ha b hb he
        simp at hb
        subst hb; subst he
        exact hr ha

theorem extended_addRules [IterOrder] (m : Model) (rules : List (Str × Rule)) :
    Extended m (rules.foldl addRule m) rules := by
  intro s t
  refine ⟨fun h => by rw [find_addRules, h], ?_⟩
  intro a h
  refine ⟨_, by rw [find_addRules, h]; rfl, Model.emplaceList_hash _ _, ?_, ?_, ?_, ?_⟩
  · intro hv
    rw [Model.emplaceList_hash] at hv
    rw [Model.emplaceList_vector hv]
  · intro r
    rw [Model.mem_emplaceList]
    split <;> simp_all
  · intro hh hn
    rw [Model.emplaceList_hash] at hh
    exact nodup_emplaceList _ _ hh hn
  · rintro (hs | hr)
    · rw [if_neg hs]; rfl
    · rw [hr, ite_self]; rfl

/-- Loading lines, given what each of them does. -/
theorem loadLines_run {lines : List Str} {meant : List (Option (Str × Rule))} (f : Str → Str)
    (h : List.Forall₂ (fun line o => ∀ m : Model, (∀ x, o = some x → m.find (x.1.take 1) x.1 ≠ none) →
      loadPolicyLine (f line) m = (.ok (), step o m))
      lines meant) :
    ∀ m : Model, (∀ x ∈ meant.filterMap id, m.find (x.1.take 1) x.1 ≠ none) →
      loadLines (lines.map f) m = (.ok (), (meant.filterMap id).foldl addRule m) := by
  induction h with
  | nil => intro m _; rfl
  | cons h _ ih =>
    rename_i line o lines meant _
    intro m hd
    simp only [List.map_cons, loadLines]
    rw [M.bind_run_ok (h m (by
      intro x hx
      apply hd
      rw [hx]; simp))]
    cases o with
    | none => exact ih m (fun x hx => hd x (by simpa using hx))
    | some x =>
      simp only [List.filterMap_cons, id, List.foldl_cons]
      apply ih
      intro y hy
      apply addRule_defined
      apply hd
      simp only [List.filterMap_cons, id, List.mem_cons]
      exact Or.inr hy

theorem forall₂_mem {α β : Type} {R S : α → β → Prop} {as : List α} {bs : List β}
    (h : List.Forall₂ R as bs) (hi : ∀ a ∈ as, ∀ b ∈ bs, R a b → S a b) : List.Forall₂ S as bs := by
  induction h with
  | nil => exact .nil
  | cons h _ ih =>
    exact .cons (hi _ (by simp) _ (by simp) h)
      (ih fun a ha b hb => hi a (by simp [ha]) b (by simp [hb]))

theorem length_of_mem_between {c : Char} {fs : List Str} {f : Str} (h : f ∈ fs) :
    f.length ≤ (between c fs).length := by
  induction fs with
  | nil => simp at h
  | cons g fs ih =>
    cases fs with
    | nil => simp at h; subst h; simp [between]
    | cons g' gs =>
      simp only [between, List.length_append, List.length_cons]
      rcases List.mem_cons.mp h with rfl | h
      · omega
      · have := ih h; omega

theorem head_trim {s : Str} {c : Char} (h : s.head? = some c) (hb : isBlank c = false) :
    (trim s).head? = some c := by
  obtain ⟨a, b, ha, hb', hs⟩ := trim_decomp s
  cases a with
  | cons x a =>
    rw [hs] at h
    simp only [List.cons_append, List.head?_cons, Option.some.injEq] at h
    subst h
    rw [ha x (by simp)] at hb; simp at hb
  | nil =>
    cases ht : trim s with
    | nil =>
      rw [ht] at hs
      simp only [List.nil_append] at hs
      rw [hs] at h
      cases b with
      | nil => simp at h
      | cons x b =>
        simp only [List.head?_cons, Option.some.injEq] at h
        subst h
        rw [hb' x (by simp)] at hb; simp at hb
    | cons x t =>
      rw [ht] at hs
      rw [hs] at h
      simpa using h

/-- An empty piece says nothing. -/
theorem lineSays_nil {o : Option (Str × Rule)} (h : LineSays [] o) : o = none := by
  cases h with
  | blank => rfl
  | comment => rfl
  | rule h1 h2 => exact absurd (trim_of_trimmed h1).symm h2

theorem lineSays_hash {line : Str} {o : Option (Str × Rule)} (h : LineSays line o)
    (hh : line.head? = some '#') : o = none := by
  cases h with
  | blank => rfl
  | comment => rfl
  | rule h1 h2 h3 =>
    rw [← trim_of_trimmed h1] at h3
    exact absurd (head_trim hh (by decide)) h3

/-- `getline` yields the pieces between newlines, but not an empty last one. -/
theorem getLines_pieces {text : Str} {fs : List Str} (h : Pieces '\n' text fs) :
    fs = getLines text ∨ fs = getLines text ++ [[]] := by
  induction text generalizing fs with
  | nil =>
    obtain ⟨h1, h2, h3⟩ := h
    right
    match fs with
    | [] => exact absurd rfl h1
    | [f] => simp only [between] at h3; rw [← h3]; rfl
    | f :: g :: gs => simp [between] at h3
  | cons c s ih =>
    obtain ⟨h1, h2, h3⟩ := h
    match fs with
    | [] => exact absurd rfl h1
    | [f] =>
      simp only [between] at h3
      subst h3
      have hc : c ≠ '\n' := fun e => h2 (c :: s) (by simp) (by simp [e])
      simp only [getLines, if_neg hc]
      have hs : Pieces '\n' s [s] :=
        ⟨by simp, by
          intro f hf
          simp only [List.mem_singleton] at hf
          subst hf
          intro hm; exact h2 (c :: f) (by simp) (by simp [hm]), rfl⟩
      rcases ih hs with h | h
      · rw [← h]; left; rfl
      · have h' : getLines s = [] ∧ s = [] := by
          cases hg : getLines s with
          | nil => rw [hg] at h; simp at h; exact ⟨rfl, h⟩
          | cons a as => rw [hg] at h; simp at h
        rw [h'.1, h'.2]; left; rfl
    | f :: g :: gs =>
      cases f with
      | nil =>
        simp only [between, List.nil_append, List.cons.injEq] at h3
        obtain ⟨rfl, hs⟩ := h3
        simp only [getLines, if_true]
        rcases ih (fs := g :: gs) ⟨by simp, fun f hf => h2 f (by simp [hf]), hs⟩ with h | h
        · left; rw [h]
        · right; rw [h]; rfl
      | cons x f =>
        simp only [between, List.cons_append, List.cons.injEq] at h3
        obtain ⟨rfl, hs⟩ := h3
        have hc : c ≠ '\n' := fun e => h2 (c :: f) (by simp) (by simp [e])
        simp only [getLines, if_neg hc]
        have hp : Pieces '\n' s (f :: g :: gs) := by
          refine ⟨by simp, ?_, hs⟩
          intro y hy
          rcases List.mem_cons.mp hy with rfl | hy
          · intro hm; exact h2 (c :: y) (by simp) (by simp [hm])
          · exact h2 y (by simp only [List.mem_cons] at hy ⊢; exact Or.inr hy)
        rcases ih hp with h | h
        · rw [← h]; left; rfl
        · cases hg : getLines s with
          | nil => rw [hg] at h; simp at h
          | cons l ls =>
            rw [hg] at h
            simp only [List.cons_append, List.cons.injEq] at h
            obtain ⟨rfl, h⟩ := h
            right
            simp [h]

theorem infix_between {c : Char} {fs : List Str} {f : Str} (h : f ∈ fs) :
    ∃ a b, between c fs = a ++ f ++ b := by
  induction fs with
  | nil => simp at h
  | cons g fs ih =>
    cases fs with
    | nil => simp at h; subst h; exact ⟨[], [], by simp [between]⟩
    | cons g' gs =>
      rcases List.mem_cons.mp h with rfl | h
      · exact ⟨[], c :: between c (g' :: gs), by simp [between]⟩
      · obtain ⟨a, b, hab⟩ := ih h
        exact ⟨g ++ c :: a, b, by rw [between, hab]; simp⟩

theorem shortLines_of_length {text : Str} (h : text.length < splitLARGE) : ShortLines text := by
  rintro a l b rfl _
  simp only [List.length_append] at h
  omega

theorem loadFile_run {text : Str} {rules : List (Str × Rule)} (h : TextSays text rules)
    (hl : ShortLines text) {m : Model} (hd : ∀ x ∈ rules, m.find (x.1.take 1) x.1 ≠ none) :
    loadFile text m = (.ok (), rules.foldl addRule m) := by
  obtain ⟨lines, meant, hp, hf, rfl⟩ := h
  have key : loadLines (lines.map trim) m = (.ok (), (meant.filterMap id).foldl addRule m) := by
    refine loadLines_run trim (forall₂_mem hf ?_) m hd
    intro line hline o _ h m hd
    obtain ⟨a, b, hab⟩ := infix_between (c := '\n') hline
    exact lineSays_file h (hl a line b (hp.2.2.trans hab) (hp.2.1 line hline)) m hd
  unfold loadFile
  rcases getLines_pieces hp with hg | hg
  · rw [← hg]; exact key
  · rw [← key, hg]
    have : ∀ (ls : List Str) (m : Model),
        loadLines ((ls ++ [[]]).map trim) m = loadLines (ls.map trim) m := by
      intro ls
      induction ls with
      | nil =>
        intro m
        simp only [List.nil_append, List.map_cons, List.map_nil, loadLines]
        exact M.bind_run_ok (loadPolicyLine_none (line := trim []) (Or.inl rfl) m)
      | cons l ls ih =>
        intro m
        simp only [List.cons_append, List.map_cons, loadLines, M.bind_run]
        split <;> simp_all
    exact (this _ _).symm

theorem loadText_run {text : Str} {rules : List (Str × Rule)} {lines : List Str}
    {meant : List (Option (Str × Rule))} (hp : Pieces '\n' text lines)
    (hf : List.Forall₂ LineSays lines meant) (hr : rules = meant.filterMap id)
    (hne : text ≠ []) (hl : text.length < splitLARGE)
    (hb : ∀ line ∈ lines, LineSays line none → line = [] ∨ line.head? = some '#') {m : Model}
    (hd : ∀ x ∈ rules, m.find (x.1.take 1) x.1 ≠ none) :
    loadText text m = (.ok (), rules.foldl addRule m) := by
  subst hr
  unfold loadText
  rw [if_neg hne, split_pieces hp hl]
  have := loadLines_run (lines := lines) (meant := meant) id (forall₂_mem hf (by
    intro line hline o _ h m hd
    have h1 := length_of_mem_between (c := '\n') hline
    rw [← hp.2.2] at h1
    exact lineSays_string h (by omega) (fun ho => hb line hline (ho ▸ h)) m
      (lineSays_hash h) hd)) m hd
  simpa using this

/-! ## Every text has one meaning -/

theorem forall₂_map_trim (fs : List Str) : List.Forall₂ Trimmed fs (fs.map trim) := by
  induction fs with
  | nil => exact .nil
  | cons f fs ih => exact .cons (trimmed_trim f) ih

theorem lineSays_exists (line : Str) : ∃ o, LineSays line o := by
  cases ht : trim line with
  | nil => exact ⟨none, .blank (trimmed_iff.mpr ht)⟩
  | cons c t =>
    by_cases hc : c = '#'
    · subst hc; exact ⟨none, .comment (trimmed_iff.mpr ht)⟩
    · obtain ⟨fs, hp⟩ := pieces_exist ',' line
      match fs, hp with
      | [], hp => exact absurd rfl hp.1
      | f :: fs, hp =>
        exact ⟨_, .rule (trimmed_iff.mpr ht) (by simp) (by simpa using hc) hp (trimmed_trim f)
          (forall₂_map_trim fs)⟩

theorem pieces_unique {c : Char} : ∀ {fs gs : List Str} {s : Str}, Pieces c s fs → Pieces c s gs →
    fs = gs := by
  intro fs
  induction fs with
  | nil => intro gs s h; exact absurd rfl h.1
  | cons f fs ih =>
    intro gs s h1 h2
    have hf : ∀ (x y r r' : Str), c ∉ x → c ∉ y → x ++ c :: r = y ++ c :: r' → x = y ∧ r = r' := by
      intro x
      induction x with
      | nil =>
        intro y r r' _ hy he
        cases y with
        | nil => simp at he; exact ⟨rfl, he⟩
        | cons z y => simp at he; simp [he.1] at hy
      | cons z x ih =>
        intro y r r' hx hy he
        cases y with
        | nil => simp at he; simp [he.1] at hx
        | cons w y =>
          simp only [List.cons_append, List.cons.injEq] at he
          simp only [List.mem_cons, not_or] at hx hy
          obtain ⟨e1, e2⟩ := ih y r r' hx.2 hy.2 he.2
          exact ⟨by rw [he.1, e1], e2⟩
    obtain ⟨_, hc1, e1⟩ := h1
    obtain ⟨hne, hc2, e2⟩ := h2
    cases gs with
    | nil => exact absurd rfl hne
    | cons g gs =>
      have hcf := hc1 f (by simp)
      have hcg := hc2 g (by simp)
      cases fs with
      | nil =>
        cases gs with
        | nil => simp only [between] at e1 e2; rw [← e1, ← e2]
        | cons g' gs =>
          simp only [between] at e1 e2
          rw [← e1, e2] at hcf
          simp at hcf
      | cons f' fs =>
        cases gs with
        | nil =>
          simp only [between] at e1 e2
          rw [← e2, e1] at hcg
          simp at hcg
        | cons g' gs =>
          simp only [between] at e1 e2
          obtain ⟨rfl, er⟩ := hf f g _ _ hcf hcg (e1.symm.trans e2)
          rw [ih (gs := g' :: gs) (s := between c (f' :: fs))
            ⟨by simp, fun x hx => hc1 x (by simp [hx]), rfl⟩
            ⟨by simp, fun x hx => hc2 x (by simp [hx]), er⟩]

theorem lineSays_unique {line : Str} {o o' : Option (Str × Rule)} (h : LineSays line o)
    (h' : LineSays line o') : o = o' := by
  cases h with
  | blank h =>
    cases h' with
    | blank => rfl
    | comment => rfl
    | rule h1 h2 => exact absurd ((trim_of_trimmed h1).symm.trans (trim_of_trimmed h)) h2
  | comment h =>
    cases h' with
    | blank => rfl
    | comment => rfl
    | rule h1 h2 h3 =>
      rw [(trim_of_trimmed h1).symm.trans (trim_of_trimmed h)] at h3
      simp at h3
  | rule h1 h2 h3 h4 h5 h6 =>
    cases h' with
    | blank h => exact absurd ((trim_of_trimmed h1).symm.trans (trim_of_trimmed h)) h2
    | comment h =>
      rw [(trim_of_trimmed h1).symm.trans (trim_of_trimmed h)] at h3
      simp at h3
    | rule _ _ _ h4' h5' h6' =>
      have := pieces_unique h4 h4'
      simp only [List.cons.injEq] at this
      obtain ⟨rfl, rfl⟩ := this
      rw [← trim_of_trimmed h5, ← trim_of_trimmed h5', ← forall₂_trimmed h6, ← forall₂_trimmed h6']

theorem textSays_exists (text : Str) : ∃ rules, TextSays text rules := by
  obtain ⟨lines, hp⟩ := pieces_exist '\n' text
  have : ∀ ls : List Str, ∃ meant, List.Forall₂ LineSays ls meant := by
    intro ls
    induction ls with
    | nil => exact ⟨[], .nil⟩
    | cons l ls ih =>
      obtain ⟨o, ho⟩ := lineSays_exists l
      obtain ⟨ms, hm⟩ := ih
      exact ⟨o :: ms, .cons ho hm⟩
  obtain ⟨meant, hm⟩ := this lines
  exact ⟨_, lines, meant, hp, hm, rfl⟩

theorem textSays_unique {text : Str} {r r' : List (Str × Rule)} (h : TextSays text r)
    (h' : TextSays text r') : r = r' := by
  obtain ⟨ls, ms, hp, hf, rfl⟩ := h
  obtain ⟨ls', ms', hp', hf', rfl⟩ := h'
  have := pieces_unique hp hp'
  subst this
  have hm : ∀ {ls : List Str} {ms ms' : List (Option (Str × Rule))}, List.Forall₂ LineSays ls ms →
      List.Forall₂ LineSays ls ms' → ms = ms' := by
    intro ls ms ms' h
    induction h generalizing ms' with
    | nil => intro h'; cases h'; rfl
    | cons h _ ih =>
      intro h'
      cases h' with
      | cons h1 h2 => rw [lineSays_unique h h1, ih h2]
  rw [hm hf hf']

/-! ## Saving -/

/-- A text a policy file can hold as a value: no comma, no line end, no blanks around it. -/
def Word (v : Str) : Prop := ',' ∉ v ∧ '\n' ∉ v ∧ Trimmed v v

/-- The policies the text format can hold. -/
structure Storable (m : Model) : Prop where
  /-- A section is a map. -/
  keys : ∀ sec, sec = c!"p" ∨ sec = c!"g" → (m.secMap sec).keys.Nodup
  /-- The names of the policy types start with the letter of their section. -/
  types : ∀ sec pt a, sec = c!"p" ∨ sec = c!"g" → m.find sec pt = some a → Word pt ∧ pt.take 1 = sec
  /-- The rules are non-empty and made of words. -/
  rules : ∀ sec pt a, sec = c!"p" ∨ sec = c!"g" → m.find sec pt = some a →
    ∀ r ∈ a.policy.items, r ≠ [] ∧ ∀ v ∈ r, Word v
  /-- A set holds a rule once. -/
  sets : ∀ sec pt a, sec = c!"p" ∨ sec = c!"g" → m.find sec pt = some a → a.policy.hash = true →
    a.policy.items.Nodup

/-- The definitions are the same, and every policy type has the same rules: in the same order when
they are kept in a vector, the same set when they are kept in a set. -/
def SameContent (m m' : Model) : Prop :=
  ∀ sec pt, (m.find sec pt = none → m'.find sec pt = none) ∧
    ∀ a, m.find sec pt = some a → ∃ P rm, m'.find sec pt = some { a with policy := P, rm := rm } ∧
      P.hash = a.policy.hash ∧ (P.hash = false → P.items = a.policy.items) ∧
      P.items.Perm a.policy.items

/-- The line of a rule. -/
def lineOf (x : Str × Rule) : Str := between ',' (x.1 :: x.2.map (' ' :: ·))

theorem between_map_cons (c : Char) (f : Str) (r : List Str) :
    between c (f :: r.map (' ' :: ·)) = f ++ r.flatMap (fun v => c :: ' ' :: v) := by
  induction r generalizing f with
  | nil => simp [between]
  | cons v r ih =>
    rw [List.map_cons, between, ih]
    simp

theorem foldl_array (r : List Str) : ∀ acc : Str,
    r.foldl (fun res it => res ++ c!", " ++ it) acc = acc ++ r.flatMap (fun v => ',' :: ' ' :: v) := by
  induction r with
  | nil => simp
  | cons v r ih => intro acc; rw [List.foldl_cons, ih]; simp

theorem arrayToString_ok {r : Rule} (h : r ≠ []) :
    ∃ t, arrayToString r = .ok t ∧ ∀ pt : Str, pt ++ c!", " ++ t = lineOf (pt, r) := by
  cases r with
  | nil => exact absurd rfl h
  | cons v r =>
    refine ⟨v ++ r.flatMap (fun v => ',' :: ' ' :: v), ?_, ?_⟩
    · unfold arrayToString
      rw [foldl_array]
      simp
    · intro pt
      rw [lineOf, between_map_cons]
      simp

theorem saveRules_ok (pt : Str) : ∀ rs : List Rule, (∀ r ∈ rs, r ≠ []) →
    saveRules pt rs = .ok (rs.flatMap fun r => lineOf (pt, r) ++ c!"\n") := by
  intro rs
  induction rs with
  | nil => intro _; rfl
  | cons r rs ih =>
    intro h
    obtain ⟨t, h1, h2⟩ := arrayToString_ok (h r (by simp))
    rw [saveRules, h1, ih (fun x hx => h x (by simp [hx]))]
    simp only [Outcome.ok_bind, List.flatMap_cons]
    rw [h2]

variable [IterOrder]

/-- The rules of a section, in the order they are written. -/
def sectionRules (L : List (Str × Assertion)) : List (Str × Rule) :=
  L.flatMap fun x => x.2.policy.iterate.map fun r => (x.1, r)

theorem saveAssertions_ok : ∀ L : List (Str × Assertion),
    (∀ x ∈ L, ∀ r ∈ x.2.policy.items, r ≠ []) →
    saveAssertions L = .ok ((sectionRules L).flatMap fun x => lineOf x ++ c!"\n") := by
  intro L
  induction L with
  | nil => intro _; rfl
  | cons x L ih =>
    intro h
    rw [saveAssertions, saveRules_ok _ _ (fun r hr => h x (by simp) r
      ((Policies.mem_iterate _ _).mp hr)), ih (fun y hy => h y (by simp [hy]))]
    simp only [Outcome.ok_bind, sectionRules, List.flatMap_cons, List.flatMap_append]
    rw [List.flatMap_map]

omit [IterOrder] in
theorem rtrim_lines (ls : List Str) (hne : ∀ l ∈ ls, l ≠ []) (hn : ∀ l ∈ ls, '\n' ∉ l) :
    rtrimNewlines (ls.flatMap (· ++ c!"\n")) = between '\n' ls := by
  have key : ∀ ls : List Str, ls ≠ [] →
      ls.flatMap (· ++ c!"\n") = between '\n' ls ++ c!"\n" := by
    intro ls
    induction ls with
    | nil => intro h; exact absurd rfl h
    | cons l ls ih =>
      intro _
      cases ls with
      | nil => simp [between]
      | cons l' ls => rw [List.flatMap_cons, ih (by simp), between]; simp
  cases ls with
  | nil => rfl
  | cons l ls =>
    rw [key _ (by simp)]
    have hlast : ∀ ls : List Str, (∀ l ∈ ls, l ≠ []) → (∀ l ∈ ls, '\n' ∉ l) → ls ≠ [] →
        ∃ r c, between '\n' ls = r ++ [c] ∧ c ≠ '\n' := by
      intro ls
      induction ls with
      | nil => intro _ _ h; exact absurd rfl h
      | cons l ls ih =>
        intro h1 h2 _
        cases ls with
        | nil =>
          refine ⟨_, _, (List.dropLast_append_getLast (h1 l (by simp))).symm, ?_⟩
          intro he
          have := List.getLast_mem (h1 l (by simp))
          rw [he] at this
          exact h2 l (by simp) this
        | cons l' ls =>
          obtain ⟨r, c, h3, h4⟩ := ih (fun x hx => h1 x (by simp [hx]))
            (fun x hx => h2 x (by simp [hx])) (by simp)
          exact ⟨l ++ '\n' :: r, c, by rw [between, h3]; simp, h4⟩
    obtain ⟨r, c, h1, h2⟩ := hlast (l :: ls) hne hn (by simp)
    rw [h1]
    unfold rtrimNewlines
    simp [h2]

omit [IterOrder] in
theorem word_line {x : Str × Rule} (h1 : Word x.1) (h2 : x.1 ≠ []) (h3 : x.1.head? ≠ some '#')
    (h4 : ∀ v ∈ x.2, Word v) : lineOf x ≠ [] ∧ '\n' ∉ lineOf x ∧ (lineOf x).head? = x.1.head? ∧
      LineSays (lineOf x) (some x) := by
  obtain ⟨pt, r⟩ := x
  simp only at h1 h2 h3 h4
  have hline : lineOf (pt, r) = pt ++ r.flatMap (fun v => ',' :: ' ' :: v) := between_map_cons _ _ _
  cases pt with
  | nil => exact absurd rfl h2
  | cons c pt =>
    have hhead : (lineOf (c :: pt, r)).head? = some c := by rw [hline]; rfl
    have hc : isBlank c = false := not_space_iff.mp (h1.2.2.2.1 c rfl)
    have hn : '\n' ∉ lineOf (c :: pt, r) := by
      rw [hline]
      simp only [List.mem_append, List.mem_flatMap, not_or, not_exists, not_and]
      refine ⟨h1.2.1, ?_⟩
      intro v hv
      simp only [List.mem_cons, not_or]
      exact ⟨by decide, by decide, (h4 v hv).2.1⟩
    refine ⟨by rw [hline]; simp, hn, hhead, ?_⟩
    have ht := head_trim hhead hc
    refine .rule (trimmed_trim _) ?_ ?_ ⟨by simp, ?_, rfl⟩ h1.2.2 ?_
    · intro he; rw [he] at ht; simp at ht
    · rw [ht]; simpa using h3
    · intro f hf
      rcases List.mem_cons.mp hf with rfl | hf
      · exact h1.1
      · obtain ⟨v, hv, rfl⟩ := List.mem_map.mp hf
        simp only [List.mem_cons, not_or]
        exact ⟨by decide, (h4 v hv).1⟩
    · clear hline hhead hn ht
      induction r with
      | nil => exact .nil
      | cons v r ih =>
        refine .cons ?_ (ih fun w hw => h4 w (by simp [hw]))
        rw [trimmed_iff, trim_cons_blank (by decide), ← trimmed_iff]
        exact (h4 v (by simp)).2.2

/-- All rules of the model, in the order they are written. -/
def allRules (m : Model) : List (Str × Rule) :=
  sectionRules (IterOrder.iter (m.secMap c!"p")) ++ sectionRules (IterOrder.iter (m.secMap c!"g"))

theorem mem_sec {m : Model} {sec : Str} {x : Str × Assertion} (hk : (m.secMap sec).keys.Nodup)
    (hx : x ∈ IterOrder.iter (m.secMap sec)) : m.find sec x.1 = some x.2 := by
  rw [IterOrder.mem_iter] at hx
  rw [← Model.find_secMap]
  exact UMap.get_of_mem hk hx

theorem mem_allRules {m : Model} (hS : Storable m) {x : Str × Rule} (h : x ∈ allRules m) :
    ∃ sec a, (sec = c!"p" ∨ sec = c!"g") ∧ m.find sec x.1 = some a ∧ x.2 ∈ a.policy.items := by
  simp only [allRules, sectionRules, List.mem_append, List.mem_flatMap, List.mem_map] at h
  rcases h with ⟨y, hy, r, hr, rfl⟩ | ⟨y, hy, r, hr, rfl⟩
  · exact ⟨c!"p", y.2, Or.inl rfl, mem_sec (hS.keys _ (Or.inl rfl)) hy,
      (Policies.mem_iterate _ _).mp hr⟩
  · exact ⟨c!"g", y.2, Or.inr rfl, mem_sec (hS.keys _ (Or.inr rfl)) hy,
      (Policies.mem_iterate _ _).mp hr⟩

theorem allRules_line {m : Model} (hS : Storable m) {x : Str × Rule} (h : x ∈ allRules m) :
    lineOf x ≠ [] ∧ '\n' ∉ lineOf x ∧ (lineOf x).head? ≠ some '#' ∧
      LineSays (lineOf x) (some x) ∧ m.find (x.1.take 1) x.1 ≠ none := by
  obtain ⟨sec, a, hsec, hf, hr⟩ := mem_allRules hS h
  obtain ⟨hw, ht⟩ := hS.types sec x.1 a hsec hf
  have hne : x.1 ≠ [] := by
    intro he; rw [he] at ht
    rcases hsec with rfl | rfl <;> simp at ht
  have hh : x.1.head? ≠ some '#' := by
    cases hx : x.1 with
    | nil => simp
    | cons c t =>
      rw [hx] at ht
      simp only [List.take_succ_cons, List.take_zero] at ht
      rcases hsec with rfl | rfl
      · simp only [List.cons.injEq, and_true] at ht; subst ht; simp
      · simp only [List.cons.injEq, and_true] at ht; subst ht; simp
  obtain ⟨w1, w2, w3, w4⟩ := word_line hw hne hh (hS.rules sec x.1 a hsec hf x.2 hr).2
  refine ⟨w1, w2, by rw [w3]; exact hh, w4, ?_⟩
  rw [ht, hf]; simp

theorem policyText_ok {m : Model} (hS : Storable m) :
    policyText m = .ok (between '\n' ((allRules m).map lineOf)) := by
  have hne : ∀ sec, sec = c!"p" ∨ sec = c!"g" → ∀ x ∈ IterOrder.iter (m.secMap sec),
      ∀ r ∈ x.2.policy.items, r ≠ [] := by
    intro sec hsec x hx r hr
    exact (hS.rules sec x.1 x.2 hsec (mem_sec (hS.keys sec hsec) hx) r hr).1
  unfold policyText
  rw [saveAssertions_ok _ (hne _ (Or.inl rfl)), saveAssertions_ok _ (hne _ (Or.inr rfl))]
  simp only [Outcome.ok_bind]
  rw [← List.flatMap_append]
  have : ((allRules m).flatMap fun x => lineOf x ++ c!"\n") =
      ((allRules m).map lineOf).flatMap (· ++ c!"\n") := by rw [List.flatMap_map]
  show Outcome.ok (rtrimNewlines ((allRules m).flatMap fun x => lineOf x ++ c!"\n")) = _
  rw [this, rtrim_lines]
  · intro l hl
    obtain ⟨x, hx, rfl⟩ := List.mem_map.mp hl
    exact (allRules_line hS hx).1
  · intro l hl
    obtain ⟨x, hx, rfl⟩ := List.mem_map.mp hl
    exact (allRules_line hS hx).2.1

theorem forall₂_lines {m : Model} (hS : Storable m) : ∀ L : List (Str × Rule),
    (∀ x ∈ L, x ∈ allRules m) → List.Forall₂ LineSays (L.map lineOf) (L.map some) := by
  intro L
  induction L with
  | nil => intro _; exact .nil
  | cons x L ih =>
    intro h
    exact .cons (allRules_line hS (h x (by simp))).2.2.2.1 (ih fun y hy => h y (by simp [hy]))

theorem pieces_lines {m : Model} (hS : Storable m) (hne : allRules m ≠ []) :
    Pieces '\n' (between '\n' ((allRules m).map lineOf)) ((allRules m).map lineOf) := by
  refine ⟨by simpa using hne, ?_, rfl⟩
  intro l hl
  obtain ⟨x, hx, rfl⟩ := List.mem_map.mp hl
  exact (allRules_line hS hx).2.1

theorem textSays_saved {m : Model} (hS : Storable m) :
    TextSays (between '\n' ((allRules m).map lineOf)) (allRules m) := by
  by_cases hne : allRules m = []
  · rw [hne]
    exact ⟨[[]], [none], ⟨by simp, by simp, rfl⟩, .cons (.blank (trimmed_iff.mpr rfl)) .nil, rfl⟩
  · exact ⟨_, _, pieces_lines hS hne, forall₂_lines hS _ (fun _ h => h), by simp⟩

omit [IterOrder] in
theorem rulesOf_append (a b : List (Str × Rule)) (pt : Str) :
    rulesOf (a ++ b) pt = rulesOf a pt ++ rulesOf b pt := by
  simp [rulesOf]

omit [IterOrder] in
theorem rulesOf_none {L : List (Str × Rule)} {pt : Str} (h : ∀ x ∈ L, x.1 ≠ pt) :
    rulesOf L pt = [] := by
  simp only [rulesOf, List.map_eq_nil_iff, List.filter_eq_nil_iff, decide_eq_true_eq]
  exact h

omit [IterOrder] in
theorem rulesOf_same (pt : Str) (rs : List Rule) : rulesOf (rs.map fun r => (pt, r)) pt = rs := by
  induction rs with
  | nil => rfl
  | cons r rs ih =>
    unfold rulesOf at ih ⊢
    simp only [List.map_cons, List.filter_cons, decide_true, if_true, ih]

theorem rulesOf_section : ∀ (L : List (Str × Assertion)), (L.map Prod.fst).Nodup →
    ∀ pt a, (pt, a) ∈ L → rulesOf (sectionRules L) pt = a.policy.iterate := by
  intro L
  induction L with
  | nil => intro _ pt a h; simp at h
  | cons x L ih =>
    intro hn pt a h
    have hs : sectionRules (x :: L) = (x.2.policy.iterate.map fun r => (x.1, r)) ++ sectionRules L := by
      simp [sectionRules]
    rw [hs, rulesOf_append]
    simp only [List.map_cons, List.nodup_cons] at hn
    rcases List.mem_cons.mp h with rfl | h
    · simp only
      rw [rulesOf_same, rulesOf_none (L := sectionRules L), List.append_nil]
      intro y hy he
      simp only [sectionRules, List.mem_flatMap, List.mem_map] at hy
      obtain ⟨z, hz, r, _, rfl⟩ := hy
      simp only at he
      rw [← he] at hn
      exact hn.1 (List.mem_map.mpr ⟨z, hz, rfl⟩)
    · rw [ih hn.2 pt a h, rulesOf_none, List.nil_append]
      intro y hy he
      obtain ⟨r, _, rfl⟩ := List.mem_map.mp hy
      simp only at he
      subst he
      exact hn.1 (List.mem_map.mpr ⟨(x.1, a), h, rfl⟩)

/-- The rules written for a policy type are those it holds. -/
theorem rulesOf_allRules {m : Model} (hS : Storable m) {sec pt : Str} {a : Assertion}
    (hsec : sec = c!"p" ∨ sec = c!"g") (hf : m.find sec pt = some a) :
    rulesOf (allRules m) pt = a.policy.iterate := by
  have hin : ∀ sec', sec' = c!"p" ∨ sec' = c!"g" → m.find sec' pt = some a →
      rulesOf (sectionRules (IterOrder.iter (m.secMap sec'))) pt = a.policy.iterate := by
    intro sec' hs hf
    apply rulesOf_section
    · have := (IterOrder.iter_perm (m.secMap sec')).map Prod.fst
      exact this.nodup_iff.mpr (hS.keys sec' hs)
    · rw [IterOrder.mem_iter]
      rw [← Model.find_secMap] at hf
      exact UMap.mem_of_get hf
  have hout : ∀ sec', sec' = c!"p" ∨ sec' = c!"g" → sec' ≠ sec →
      rulesOf (sectionRules (IterOrder.iter (m.secMap sec'))) pt = [] := by
    intro sec' hs hne
    apply rulesOf_none
    intro y hy he
    simp only [sectionRules, List.mem_flatMap, List.mem_map] at hy
    obtain ⟨z, hz, r, _, rfl⟩ := hy
    have h1 := (hS.types sec' z.1 z.2 hs (mem_sec (hS.keys sec' hs) hz)).2
    have h2 := (hS.types sec pt a hsec hf).2
    simp only at he
    rw [he] at h1
    exact hne (h1.symm.trans h2)
  unfold allRules
  rw [rulesOf_append]
  rcases hsec with rfl | rfl
  · rw [hin _ (Or.inl rfl) hf, hout _ (Or.inr rfl) (by decide), List.append_nil]
  · rw [hin _ (Or.inr rfl) hf, hout _ (Or.inl rfl) (by decide), List.nil_append]

/-- Loading what was saved into the cleared model gives the same rules. -/
theorem sameContent_reload {m m' : Model} (hS : Storable m)
    (hE : Extended m.clearPolicy m' (allRules m)) : SameContent m m' := by
  intro sec pt
  obtain ⟨h1, h2⟩ := hE sec pt
  rw [Model.find_clearPolicy] at h1 h2
  by_cases hsec : sec = c!"p" ∨ sec = c!"g"
  · rw [if_pos hsec] at h1 h2
    refine ⟨fun h => h1 (by rw [h]; rfl), ?_⟩
    intro a ha
    rw [ha] at h2
    obtain ⟨P, p1, p2, p3, p4, p5, _⟩ := h2 _ rfl
    have ht := (hS.types sec pt a hsec ha).2
    rw [rulesOf_allRules hS hsec ha] at p3 p4
    simp only [Policies.clear, List.nil_append, List.not_mem_nil, false_or] at p2 p3 p4 p5
    refine ⟨P, a.rm, p1, p2, ?_, ?_⟩
    · intro hv
      rw [p3 hv, if_pos ht.symm]
      exact Policies.iterate_of_vector (by rw [← p2]; exact hv)
    · cases hv : P.hash with
      | false =>
        rw [p3 hv, if_pos ht.symm]
        exact Policies.iterate_perm _
      | true =>
        rw [List.perm_ext_iff_of_nodup (p5 hv (by simp))
          (hS.sets sec pt a hsec ha (by rw [← p2]; exact hv))]
        intro r
        rw [p4 r]
        simp [ht, Policies.mem_iterate]
  · rw [if_neg hsec] at h1 h2
    refine ⟨h1, ?_⟩
    intro a ha
    obtain ⟨P, p1, p2, _, _, _, p6⟩ := h2 a ha
    have hP : P = a.policy := by
      apply p6
      by_cases ht : sec = pt.take 1
      · right
        apply rulesOf_none
        intro x hx he
        obtain ⟨s, b, hs, hf, _⟩ := mem_allRules hS hx
        have := (hS.types s x.1 b hs hf).2
        rw [he, ← ht] at this
        exact hsec (this ▸ hs)
      · exact Or.inl ht
    subst hP
    exact ⟨a.policy, a.rm, p1, rfl, fun _ => rfl, .refl _⟩

end AdapterProps
end Casbin
