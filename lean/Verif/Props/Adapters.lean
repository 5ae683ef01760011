import Verif.AdapterLemmas
import Verif.LinkLemmas
import Verif.Fixtures

/-!
# C42, C43, C47: policy text, saving and loading

`TextSays` (AdapterLemmas.lean) is what a policy text means; every text has exactly one meaning.
-/

namespace Casbin
namespace AdapterProps

open Enforcer Fixtures

variable [IterOrder]

/-! ## C47 -/

omit [IterOrder] in
/-- Every text has exactly one meaning. -/
theorem C47_meaning (text : Str) : ∃! rules, TextSays text rules := by
  obtain ⟨r, h⟩ := textSays_exists text
  exact ⟨r, h, fun r' h' => textSays_unique h' h⟩

/-- C47: loading a policy file stores exactly the rules its text says, in order. -/
theorem C47_file {ad : Adapter} {path text : Str} {w b : Bool}
    (hk : ad.kind = .file path (some text) w b) (hp : path ≠ []) {rules : List (Str × Rule)}
    (h : TextSays text rules) (hl : ShortLines text) {m : Model}
    (hd : ∀ x ∈ rules, m.find (x.1.take 1) x.1 ≠ none) :
    ∃ m', ad.loadPolicy m = (.ok (), m') ∧ Extended m m' rules := by
  refine ⟨rules.foldl addRule m, ?_, extended_addRules m rules⟩
  unfold Adapter.loadPolicy
  rw [hk]
  simp only [if_neg hp]
  exact loadFile_run h hl hd

/-- C47: the same for a text given to a `StringAdapter`. Missing: blank lines that are not empty and
comments that do not start in the first column (`C47_string_fails`), and the empty text. -/
theorem C47_string_partial {ad : Adapter} {text : Str} (hk : ad.kind = .string text)
    (hne : text ≠ []) (hl : text.length < splitLARGE) {rules : List (Str × Rule)}
    (h : TextSays text rules)
    (hb : ∀ lines, Pieces '\n' text lines → ∀ line ∈ lines, LineSays line none →
      line = [] ∨ line.head? = some '#') {m : Model}
    (hd : ∀ x ∈ rules, m.find (x.1.take 1) x.1 ≠ none) :
    ∃ m', ad.loadPolicy m = (.ok (), m') ∧ Extended m m' rules := by
  refine ⟨rules.foldl addRule m, ?_, extended_addRules m rules⟩
  unfold Adapter.loadPolicy
  rw [hk]
  obtain ⟨lines, meant, h1, h2, h3⟩ := h
  exact loadText_run h1 h2 h3 hne hl (hb lines h1) hd

/-- The text used in the examples. -/
def sample : Str := c!"# users\np, alice , data1,read\n\n  # more\n p,bob,data2,write\ng, bob, admin\n"

omit [IterOrder] in
theorem sample_says : TextSays sample
    [(c!"p", alice), (c!"p", bob), (c!"g", [c!"bob", c!"admin"])] := by
  refine ⟨[c!"# users", c!"p, alice , data1,read", [], c!"  # more", c!" p,bob,data2,write",
    c!"g, bob, admin", []],
    [none, some (c!"p", alice), none, none, some (c!"p", bob), some (c!"g", [c!"bob", c!"admin"]),
      none], ⟨by simp, by decide, by decide⟩, ?_, rfl⟩
  refine .cons (.comment (t := c!" users") (trimmed_iff.mpr (by decide))) (.cons ?_
    (.cons (.blank (trimmed_iff.mpr (by decide)))
    (.cons (.comment (t := c!" more") (trimmed_iff.mpr (by decide)))
    (.cons ?_ (.cons ?_ (.cons (.blank (trimmed_iff.mpr (by decide))) .nil))))))
  · refine .rule (t := c!"p, alice , data1,read") (f := c!"p")
      (fs := [c!" alice ", c!" data1", c!"read"])
      (trimmed_iff.mpr (by decide)) (by decide) (by decide) ⟨by simp, by decide, by decide⟩
      (trimmed_iff.mpr (by decide)) ?_
    exact .cons (trimmed_iff.mpr (by decide)) (.cons (trimmed_iff.mpr (by decide))
      (.cons (trimmed_iff.mpr (by decide)) .nil))
  · refine .rule (t := c!"p,bob,data2,write") (f := c!" p") (fs := [c!"bob", c!"data2", c!"write"])
      (trimmed_iff.mpr (by decide)) (by decide) (by decide) ⟨by simp, by decide, by decide⟩
      (trimmed_iff.mpr (by decide)) ?_
    exact .cons (trimmed_iff.mpr (by decide)) (.cons (trimmed_iff.mpr (by decide))
      (.cons (trimmed_iff.mpr (by decide)) .nil))
  · refine .rule (t := c!"g, bob, admin") (f := c!"g") (fs := [c!" bob", c!" admin"])
      (trimmed_iff.mpr (by decide)) (by decide) (by decide) ⟨by simp, by decide, by decide⟩
      (trimmed_iff.mpr (by decide)) ?_
    exact .cons (trimmed_iff.mpr (by decide)) (.cons (trimmed_iff.mpr (by decide)) .nil)

/-- The hypotheses of `C47_file` can be met by a text with comments, blank lines and blanks. -/
example : ∃ m', (Adapter.mk (.file c!"policy.csv" (some sample) true false) []).loadPolicy
      (rbacModel [carol] []) = (.ok (), m') ∧
    ∃ a, m'.find c!"p" c!"p" = some a ∧ a.policy.items = [carol, alice, bob] := by
  obtain ⟨m', h1, h2⟩ := C47_file (ad := ⟨.file c!"policy.csv" (some sample) true false, []⟩)
    rfl (by simp) sample_says (shortLines_of_length (by decide)) (m := rbacModel [carol] [])
    (by simp [rbacModel, Model.find, UMap.get, pDef])
  obtain ⟨P, p1, p2, p3, _⟩ := (h2 c!"p" c!"p").2 _ rfl
  exact ⟨m', h1, _, p1, p3 p2⟩

/-- A text for `C47_string_partial`. -/
def sampleS : Str := c!"# users\np, alice , data1,read\n\np,bob,data2,write"

omit [IterOrder] in
theorem sampleS_pieces : Pieces '\n' sampleS
    [c!"# users", c!"p, alice , data1,read", [], c!"p,bob,data2,write"] :=
  ⟨by simp, by decide, by decide⟩

omit [IterOrder] in
theorem sampleS_says : TextSays sampleS [(c!"p", alice), (c!"p", bob)] := by
  refine ⟨_, [none, some (c!"p", alice), none, some (c!"p", bob)], sampleS_pieces, ?_, rfl⟩
  refine .cons (.comment (t := c!" users") (trimmed_iff.mpr (by decide))) (.cons ?_
    (.cons (.blank (trimmed_iff.mpr (by decide))) (.cons ?_ .nil)))
  · refine .rule (t := c!"p, alice , data1,read") (f := c!"p")
      (fs := [c!" alice ", c!" data1", c!"read"])
      (trimmed_iff.mpr (by decide)) (by decide) (by decide) ⟨by simp, by decide, by decide⟩
      (trimmed_iff.mpr (by decide)) ?_
    exact .cons (trimmed_iff.mpr (by decide)) (.cons (trimmed_iff.mpr (by decide))
      (.cons (trimmed_iff.mpr (by decide)) .nil))
  · refine .rule (t := c!"p,bob,data2,write") (f := c!"p") (fs := [c!"bob", c!"data2", c!"write"])
      (trimmed_iff.mpr (by decide)) (by decide) (by decide) ⟨by simp, by decide, by decide⟩
      (trimmed_iff.mpr (by decide)) ?_
    exact .cons (trimmed_iff.mpr (by decide)) (.cons (trimmed_iff.mpr (by decide))
      (.cons (trimmed_iff.mpr (by decide)) .nil))

/-- The hypotheses of `C47_string_partial` can be met. -/
example : ∃ m', (Adapter.string sampleS).loadPolicy (aclModel (.vector [])) = (.ok (), m') ∧
    Extended (aclModel (.vector [])) m' [(c!"p", alice), (c!"p", bob)] := by
  refine C47_string_partial (ad := Adapter.string sampleS) rfl (by decide) (by decide)
    sampleS_says ?_ (by simp [aclModel, Model.find, UMap.get, pDef])
  intro lines hp line hl hn
  rw [pieces_unique hp sampleS_pieces] at hl
  simp only [List.mem_cons, List.not_mem_nil, or_false] at hl
  rcases hl with rfl | rfl | rfl | rfl
  · exact Or.inr rfl
  · cases hn with
    | blank h => exact absurd (trim_of_trimmed h) (by decide)
    | comment h => exact absurd (congrArg List.head? (trim_of_trimmed h)) (by simp; decide)
  · exact Or.inl rfl
  · cases hn with
    | blank h => exact absurd (trim_of_trimmed h) (by decide)
    | comment h => exact absurd (congrArg List.head? (trim_of_trimmed h)) (by simp; decide)

omit [IterOrder] in
/-- C47 is violated by `StringAdapter`: it does not trim the lines, so that a line of blanks and a
comment with a blank before it are taken for rules of a policy type that does not exist. The
undefined behaviour is a null pointer that is dereferenced. -/
theorem C47_string_fails :
    (TextSays c!"p, a, b, c\n \n" [(c!"p", [c!"a", c!"b", c!"c"])] ∧
      ((Adapter.string c!"p, a, b, c\n \n").loadPolicy (aclModel (.vector []))).1 = .ub .nullDeref) ∧
    (TextSays c!"p, a, b, c\n # no\n" [(c!"p", [c!"a", c!"b", c!"c"])] ∧
      ((Adapter.string c!"p, a, b, c\n # no\n").loadPolicy (aclModel (.vector []))).1 =
        .ub .nullDeref) := by
  have hr : LineSays c!"p, a, b, c" (some (c!"p", [c!"a", c!"b", c!"c"])) := by
    refine .rule (t := c!"p, a, b, c") (f := c!"p") (fs := [c!" a", c!" b", c!" c"])
      (trimmed_iff.mpr (by decide)) (by decide) (by decide) ⟨by simp, by decide, by decide⟩
      (trimmed_iff.mpr (by decide)) ?_
    exact .cons (trimmed_iff.mpr (by decide)) (.cons (trimmed_iff.mpr (by decide))
      (.cons (trimmed_iff.mpr (by decide)) .nil))
  refine ⟨⟨⟨[c!"p, a, b, c", c!" ", []], [some _, none, none], ⟨by simp, by decide, by decide⟩,
    .cons hr (.cons (.blank (trimmed_iff.mpr (by decide)))
      (.cons (.blank (trimmed_iff.mpr (by decide))) .nil)), rfl⟩, ?_⟩,
    ⟨⟨[c!"p, a, b, c", c!" # no", []], [some _, none, none], ⟨by simp, by decide, by decide⟩,
    .cons hr (.cons (.comment (t := c!" no") (trimmed_iff.mpr (by decide)))
      (.cons (.blank (trimmed_iff.mpr (by decide))) .nil)), rfl⟩, ?_⟩⟩
  · rfl
  · rfl

/-! ## C42 -/

omit [IterOrder] in
theorem find_ensured (m : Model) (s t : Str) :
    ((m.ensureSec c!"p").ensureSec c!"g").find s t = m.find s t := by
  rw [Model.find_ensureSec, Model.find_ensureSec]

omit [IterOrder] in
theorem secMap_ensured (m : Model) (sec s : Str) : (m.ensureSec sec).secMap s = m.secMap s := by
  unfold Model.ensureSec
  split
  · rfl
  · rename_i h
    unfold Model.secMap
    rw [UMap.get_set]
    by_cases h1 : sec = s
    · subst h1
      have : m.get sec = none := by
        rw [UMap.get_eq_none_iff]; intro hk; exact h ((UMap.has_iff _ _).mpr hk)
      simp [this]
    · simp [h1]

omit [IterOrder] in
theorem storable_ensured {m : Model} (h : Storable m) :
    Storable ((m.ensureSec c!"p").ensureSec c!"g") := by
  obtain ⟨h1, h2, h3, h4⟩ := h
  refine ⟨?_, ?_, ?_, ?_⟩
  · intro sec hs; rw [secMap_ensured, secMap_ensured]; exact h1 sec hs
  · intro sec pt a hs hf; rw [find_ensured] at hf; exact h2 sec pt a hs hf
  · intro sec pt a hs hf; rw [find_ensured] at hf; exact h3 sec pt a hs hf
  · intro sec pt a hs hf; rw [find_ensured] at hf; exact h4 sec pt a hs hf

theorem allRules_ensured (m : Model) :
    allRules ((m.ensureSec c!"p").ensureSec c!"g") = allRules m := by
  unfold allRules
  simp only [secMap_ensured]

/-- Loading, given what the adapter does. -/
theorem loadPolicy_ok {E : Enforcer} {ad : Adapter} {m' : Model} (ha : E.adapter = some ad)
    (hl : ad.loadPolicy E.model.clearPolicy = (.ok (), m')) :
    loadPolicy E = if E.autoBuild
      then buildRoleLinks { E with model := m', adapter := some { ad with log := ad.log ++ [.load] } }
      else (.ok (), { E with model := m', adapter := some { ad with log := ad.log ++ [.load] } }) := by
  unfold loadPolicy
  simp only [clearPolicy, onModel, onAdapter, M.bind_run, M.modify_run, M.get_run, ha, hl]
  split <;> simp_all

/-- Saving, given what the adapter does. -/
theorem savePolicy_ok {E : Enforcer} {ad ad' : Adapter} (ha : E.adapter = some ad)
    (hf : ad.isFiltered = false)
    (hs : Adapter.savePolicy ((E.model.ensureSec c!"p").ensureSec c!"g") ad = (.ok (), ad')) :
    savePolicy E = (.ok (), { E with
      model := (E.model.ensureSec c!"p").ensureSec c!"g"
      adapter := some ad'
      watcher := E.watcher.map fun w => { w with log := w.log ++ [.update] } }) := by
  unfold savePolicy
  simp [M.bind_run, ha, hf, onModel, onAdapter, hs]

theorem loadPolicy_throw {E : Enforcer} {ad : Adapter} {e : Exn} {m' : Model}
    (ha : E.adapter = some ad) (hl : ad.loadPolicy E.model.clearPolicy = (.throw e, m')) :
    loadPolicy E = (.throw e,
      { E with model := m', adapter := some { ad with log := ad.log ++ [.load] } }) := by
  unfold loadPolicy
  simp only [clearPolicy, onModel, onAdapter, M.bind_run, M.modify_run, M.get_run, ha, hl]

omit [IterOrder] in
theorem SameContent.of_sameRules {m m' m'' : Model} (h : SameContent m m') (hs : m'.SameRules m'') :
    SameContent m m'' := by
  intro sec pt
  obtain ⟨h1, h2⟩ := h sec pt
  refine ⟨fun hn => hs.none (h1 hn), ?_⟩
  intro a ha
  obtain ⟨P, rm, p1, p2⟩ := h2 a ha
  obtain ⟨rm', hr⟩ := hs.some p1
  exact ⟨P, rm', hr, p2⟩

omit [IterOrder] in
theorem SameContent.groupsOk {m m' : Model} (h : SameContent m m') (hg : GroupsOk m) :
    GroupsOk m' := by
  intro t a' ha'
  obtain ⟨h1, h2⟩ := h c!"g" t
  cases hf : m.find c!"g" t with
  | none => rw [h1 hf] at ha'; simp at ha'
  | some a =>
    obtain ⟨P, rm, p1, _, _, p4⟩ := h2 a hf
    rw [p1] at ha'
    simp only [Option.some.injEq] at ha'
    subst ha'
    obtain ⟨g1, g2⟩ := hg t a hf
    exact ⟨g1, fun r hr => g2 r (p4.mem_iff.mp hr)⟩

/-- What loading does after saving: the rules are the same and, when the grouping rules are long
enough, nothing is thrown. -/
def Reloads (E E' : Enforcer) : Prop :=
  SameContent E.model (loadPolicy E').2.model ∧
  (E.autoBuild = false ∨ (GroupsOk E.model ∧ ∃ rm, E.heap[E.rm]? = some rm ∧ rm.pattern = none) →
    (loadPolicy E').1 = .ok ())

theorem reloads {E E' : Enforcer} {ad : Adapter} (hS : Storable E.model)
    (hm : E'.model = (E.model.ensureSec c!"p").ensureSec c!"g") (ha : E'.adapter = some ad)
    (hb : E'.autoBuild = E.autoBuild) (hh : E'.heap = E.heap) (hr : E'.rm = E.rm)
    (hl : ad.loadPolicy E'.model.clearPolicy =
      (.ok (), (allRules E.model).foldl addRule E'.model.clearPolicy)) : Reloads E E' := by
  have hc : SameContent E.model ((allRules E.model).foldl addRule E'.model.clearPolicy) := by
    have h1 := sameContent_reload (storable_ensured hS)
      (extended_addRules _ (allRules ((E.model.ensureSec c!"p").ensureSec c!"g")))
    rw [allRules_ensured, ← hm] at h1
    intro sec pt
    have h2 := h1 sec pt
    rw [hm, find_ensured, ← hm] at h2
    exact h2
  unfold Reloads
  rw [loadPolicy_ok ha hl]
  cases hab : E.autoBuild with
  | false =>
    rw [if_neg (by rw [hb, hab]; simp)]
    exact ⟨hc, fun _ => rfl⟩
  | true =>
    rw [if_pos (by rw [hb, hab])]
    refine ⟨hc.of_sameRules (buildRoleLinks_linkOnly _).1, ?_⟩
    rintro (h | ⟨hg, rm, h1, h2⟩)
    · simp at h
    · obtain ⟨rm', m', h3, _⟩ := buildRoleLinks_run
        (E := { E' with
          model := (allRules E.model).foldl addRule E'.model.clearPolicy
          adapter := some { ad with log := ad.log ++ [.load] } })
        (rm := rm) (by simp only [hh, hr]; exact h1) h2 (hc.groupsOk hg)
      rw [h3]

/-- C42: saving to a policy file and loading from it gives back the same rules. -/
theorem C42_file {E : Enforcer} {ad : Adapter} {path : Str} {disk : Option Str} {b : Bool}
    (ha : E.adapter = some ad) (hk : ad.kind = .file path disk true b) (hp : path ≠ [])
    (hS : Storable E.model) (hl : ∀ t, policyText E.model = .ok t → ShortLines t) :
    ∃ E', savePolicy E = (.ok (), E') ∧ (∀ s t, E'.model.find s t = E.model.find s t) ∧
      Reloads E E' := by
  have ht := policyText_ok (storable_ensured hS)
  have hl' := hl _ (policyText_ok hS)
  rw [allRules_ensured] at ht
  have hsv : Adapter.savePolicy ((E.model.ensureSec c!"p").ensureSec c!"g") ad = (.ok (),
      ⟨.file path (some (between '\n' ((allRules E.model).map lineOf))) true b, ad.log ++ [.save]⟩) := by
    simp only [Adapter.savePolicy, hk, if_neg hp, ht, if_true]
  refine ⟨_, savePolicy_ok ha (by simp [Adapter.isFiltered, hk]) hsv, ?_,
    reloads hS rfl rfl rfl rfl rfl ?_⟩
  · exact find_ensured E.model
  · simp only [Adapter.loadPolicy, if_neg hp]
    refine loadFile_run (textSays_saved hS) hl' ?_
    intro x hx
    have h1 := (allRules_line hS hx).2.2.2.2
    rw [Model.find_clearPolicy, find_ensured]
    cases hf : E.model.find (x.1.take 1) x.1 with
    | none => exact absurd hf h1
    | some a => split <;> simp

/-- C42: the same with a `StringAdapter` that holds a text. Missing: a policy without rules
(`C42_string_fails`). -/
theorem C42_string_partial {E : Enforcer} {ad : Adapter} {line : Str}
    (ha : E.adapter = some ad) (hk : ad.kind = .string line) (hne : line ≠ [])
    (hS : Storable E.model) (hl : ∀ t, policyText E.model = .ok t → t.length < splitLARGE)
    (hr : ∃ sec pt a, (sec = c!"p" ∨ sec = c!"g") ∧ E.model.find sec pt = some a ∧
      a.policy.items ≠ []) :
    ∃ E', savePolicy E = (.ok (), E') ∧ (∀ s t, E'.model.find s t = E.model.find s t) ∧
      Reloads E E' := by
  have ht := policyText_ok (storable_ensured hS)
  have hl' := hl _ (policyText_ok hS)
  rw [allRules_ensured] at ht
  have hne' : allRules E.model ≠ [] := by
    obtain ⟨sec, pt, a, hs, hf, hi⟩ := hr
    intro he
    have := rulesOf_allRules hS hs hf
    rw [he] at this
    have h2 := Policies.iterate_perm a.policy
    rw [← this] at h2
    exact hi h2.symm.eq_nil
  have hsv : Adapter.savePolicy ((E.model.ensureSec c!"p").ensureSec c!"g") ad = (.ok (),
      ⟨.string (between '\n' ((allRules E.model).map lineOf)), ad.log ++ [.save]⟩) := by
    simp only [Adapter.savePolicy, hk, if_neg hne, ht]
  refine ⟨_, savePolicy_ok ha (by simp [Adapter.isFiltered, hk]) hsv, ?_,
    reloads hS rfl rfl rfl rfl rfl ?_⟩
  · exact find_ensured E.model
  · simp only [Adapter.loadPolicy]
    refine loadText_run (pieces_lines hS hne') (forall₂_lines hS _ fun _ h => h) (by simp) ?_ hl' ?_ ?_
    · intro he
      cases hA : allRules E.model with
      | nil => exact hne' hA
      | cons x xs =>
        have hx := (allRules_line hS (x := x) (by rw [hA]; simp)).1
        obtain ⟨u, v, huv⟩ := infix_between (c := '\n') (f := lineOf x)
          (fs := (allRules E.model).map lineOf) (by rw [hA]; simp)
        rw [he] at huv
        have := congrArg List.length huv
        simp only [List.length_append, List.length_nil] at this
        exact hx (List.length_eq_zero_iff.mp (by omega))
    · intro l hl hn
      obtain ⟨x, hx, rfl⟩ := List.mem_map.mp hl
      exact absurd (lineSays_unique hn (allRules_line hS hx).2.2.2.1) (by simp)
    · intro x hx
      have h1 := (allRules_line hS hx).2.2.2.2
      rw [Model.find_clearPolicy, find_ensured]
      cases hf : E.model.find (x.1.take 1) x.1 with
      | none => exact absurd hf h1
      | some a => split <;> simp

/-- An enforcer with a policy file. -/
def fileRbac (P G : List Rule) : Enforcer :=
  { rbac P G with adapter := some ⟨.file c!"policy.csv" none true false, []⟩ }

omit [IterOrder] in
theorem storable_rbac (P G : List Rule) (h : ∀ r ∈ P ++ G, r ≠ [] ∧ ∀ v ∈ r, Word v) :
    Storable (rbacModel P G) := by
  have hf : ∀ sec pt a, sec = c!"p" ∨ sec = c!"g" → (rbacModel P G).find sec pt = some a →
      (sec = c!"p" ∧ pt = c!"p" ∧ a.policy = .vector P) ∨
      (sec = c!"g" ∧ pt = c!"g" ∧ a.policy = .vector G) := by
    intro sec pt a hs hf
    rcases hs with rfl | rfl
    · left
      by_cases hp : pt = c!"p"
      · subst hp
        have : some a = some (asrt c!"p" c!"sub, obj, act" [c!"p_sub", c!"p_obj", c!"p_act"]
          (.vector P)) := hf.symm
        simp only [Option.some.injEq] at this
        subst this
        exact ⟨rfl, rfl, rfl⟩
      · have hp' : ¬ c!"p" = pt := fun e => hp e.symm
        simp [rbacModel, Model.find, UMap.get, pDef, hp'] at hf
    · right
      by_cases hp : pt = c!"g"
      · subst hp
        have : some a = some (asrt c!"g" c!"_, _" [] (.vector G)) := hf.symm
        simp only [Option.some.injEq] at this
        subst this
        exact ⟨rfl, rfl, rfl⟩
      · have hp' : ¬ c!"g" = pt := fun e => hp e.symm
        simp [rbacModel, Model.find, UMap.get, pDef, hp'] at hf
  have hw : ∀ c : Str, c = c!"p" ∨ c = c!"g" → Word c := by
    intro c hc
    rcases hc with rfl | rfl
    · exact ⟨by decide, by decide, trimmed_iff.mpr (by decide)⟩
    · exact ⟨by decide, by decide, trimmed_iff.mpr (by decide)⟩
  refine ⟨?_, ?_, ?_, ?_⟩
  · intro sec hs
    rcases hs with rfl | rfl
    · exact List.nodup_singleton _
    · exact List.nodup_singleton _
  · intro sec pt a hs h
    rcases hf sec pt a hs h with ⟨rfl, rfl, _⟩ | ⟨rfl, rfl, _⟩
    · exact ⟨hw _ (Or.inl rfl), rfl⟩
    · exact ⟨hw _ (Or.inr rfl), rfl⟩
  · intro sec pt a hs h' r hr
    rcases hf sec pt a hs h' with ⟨_, _, h2⟩ | ⟨_, _, h2⟩
    · rw [h2] at hr; exact h r (List.mem_append_left _ hr)
    · rw [h2] at hr; exact h r (List.mem_append_right _ hr)
  · intro sec pt a hs h' hh
    rcases hf sec pt a hs h' with ⟨_, _, h2⟩ | ⟨_, _, h2⟩
    · rw [h2] at hh; simp [Policies.vector] at hh
    · rw [h2] at hh; simp [Policies.vector] at hh

omit [IterOrder] in
theorem storable_example : Storable (rbacModel [alice, bob] [[c!"alice", c!"admin"]]) := by
  apply storable_rbac
  intro r hr
  simp only [List.cons_append, List.nil_append, List.mem_cons, List.not_mem_nil, or_false] at hr
  have hw : ∀ v : Str, v ∈ ([c!"alice", c!"data1", c!"read", c!"bob", c!"data2", c!"write",
      c!"admin"] : List Str) → Word v := by
    intro v hv
    simp only [List.mem_cons, List.not_mem_nil, or_false] at hv
    rcases hv with rfl | rfl | rfl | rfl | rfl | rfl | rfl <;>
      exact ⟨by decide, by decide, trimmed_iff.mpr (by decide)⟩
  rcases hr with rfl | rfl | rfl
  · refine ⟨by decide, fun v hv => hw v ?_⟩
    simp only [alice, List.mem_cons, List.not_mem_nil, or_false] at hv ⊢
    tauto
  · refine ⟨by decide, fun v hv => hw v ?_⟩
    simp only [bob, List.mem_cons, List.not_mem_nil, or_false] at hv ⊢
    tauto
  · refine ⟨by decide, fun v hv => hw v ?_⟩
    simp only [List.mem_cons, List.not_mem_nil, or_false] at hv ⊢
    tauto

/-- The hypotheses of `C42_file` can be met. -/
example : ∃ E', @savePolicy insertionOrder (fileRbac [alice, bob] [[c!"alice", c!"admin"]]) =
      (.ok (), E') ∧ (∀ s t, E'.model.find s t =
        (fileRbac [alice, bob] [[c!"alice", c!"admin"]]).model.find s t) ∧
    @Reloads insertionOrder (fileRbac [alice, bob] [[c!"alice", c!"admin"]]) E' := by
  let _ := insertionOrder
  refine C42_file rfl rfl (by decide) storable_example ?_
  intro t ht
  apply shortLines_of_length
  have h2 : policyText (fileRbac [alice, bob] [[c!"alice", c!"admin"]]).model =
      .ok c!"p, alice, data1, read\np, bob, data2, write\ng, alice, admin" := rfl
  rw [h2] at ht
  simp only [Outcome.ok.injEq] at ht
  subst ht
  decide

/-- C42 is violated by `StringAdapter` for a policy without rules: it saves the empty text, and
loading the empty text throws. -/
theorem C42_string_fails : ∃ E E' : Enforcer, Storable E.model ∧ savePolicy E = (.ok (), E') ∧
    (loadPolicy E').1 = .throw .adapter := by
  refine ⟨{ rbac [] [] with adapter := some (.string c!"p, alice, data1, read") },
    { rbac [] [] with adapter := some ⟨.string [], [.save]⟩ }, ?_, ?_, ?_⟩
  · exact storable_rbac [] [] (by simp)
  · have hS : Storable (rbacModel [] []) := storable_rbac [] [] (by simp)
    have ht := policyText_ok hS
    have hA : allRules (rbacModel [] []) = [] := by
      apply List.eq_nil_iff_forall_not_mem.mpr
      intro x hx
      obtain ⟨sec, a, hs, hf, hr⟩ := mem_allRules hS hx
      rcases hs with rfl | rfl
      · by_cases hp : c!"p" = x.1
        · rw [← hp] at hf
          have : some a = some (asrt c!"p" c!"sub, obj, act" [c!"p_sub", c!"p_obj", c!"p_act"]
            (.vector [])) := hf.symm
          simp only [Option.some.injEq] at this
          subst this
          simp [asrt, Policies.vector] at hr
        · simp [rbacModel, Model.find, UMap.get, pDef, hp] at hf
      · by_cases hp : c!"g" = x.1
        · rw [← hp] at hf
          have : some a = some (asrt c!"g" c!"_, _" [] (.vector [])) := hf.symm
          simp only [Option.some.injEq] at this
          subst this
          simp [asrt, Policies.vector] at hr
        · simp [rbacModel, Model.find, UMap.get, pDef, hp] at hf
    rw [hA] at ht
    refine savePolicy_ok (ad := .string c!"p, alice, data1, read") rfl rfl ?_
    have hm : ((rbacModel [] []).ensureSec c!"p").ensureSec c!"g" = rbacModel [] [] := rfl
    simp only [Adapter.savePolicy, Adapter.string, rbac, enforcer, hm, ht]
    rfl
  · rw [loadPolicy_throw (ad := ⟨.string [], [.save]⟩) rfl rfl]

/-! ## C43 -/

/-- C43 is violated: `LoadPolicy` empties the model before it asks the adapter. Here the adapter
fails at once; afterwards there is no rule left, while the role links of the old policy are still in
place. -/
theorem C43_fails (e : Exn) : ∃ E : Enforcer, ∃ rm : RM,
    (∃ a, E.model.find c!"p" c!"p" = some a ∧ alice ∈ a.policy.items) ∧
    (∃ g, E.model.find c!"g" c!"g" = some g ∧ [c!"alice", c!"admin"] ∈ g.policy.items) ∧
    (E.heap[E.rm]? = some rm ∧ rm.Edge c!"alice" c!"admin") ∧
    (loadPolicy E).1 = .throw e ∧
    (∀ sec pt a, sec = c!"p" ∨ sec = c!"g" → (loadPolicy E).2.model.find sec pt = some a →
      a.policy.items = []) ∧
    (loadPolicy E).2.heap[(loadPolicy E).2.rm]? = some rm := by
  let ad : Adapter := ⟨.custom true false true (M.throw e) (fun _ => .ok ()), []⟩
  let E₀ : Enforcer := { rbac [alice] [[c!"alice", c!"admin"]] with adapter := some ad }
  have hg : GroupsOk E₀.model := by
    intro t a ha
    by_cases ht : c!"g" = t
    · subst ht
      have : some a = some (asrt c!"g" c!"_, _" [] (.vector [[c!"alice", c!"admin"]])) := ha.symm
      simp only [Option.some.injEq] at this
      subst this
      exact ⟨Or.inl (by decide), by decide⟩
    · simp [E₀, rbac, enforcer, rbacModel, Model.find, UMap.get, pDef, ht] at ha
  obtain ⟨rm, m', h1, h2, h3, h4, h5, h6, h7⟩ := buildRoleLinks_run (E := E₀) (rm := RM.new 10) rfl rfl hg
  refine ⟨{ E₀ with model := m', heap := E₀.heap.set E₀.rm rm }, rm, ?_, ?_, ⟨rfl, ?_⟩, ?_⟩
  · obtain ⟨p, hp⟩ := h2.some (s := c!"p") (t := c!"p") rfl
    exact ⟨_, hp, by simp [Policies.vector, asrt]⟩
  · obtain ⟨p, hp⟩ := h2.some (s := c!"g") (t := c!"g") rfl
    exact ⟨_, hp, by simp [Policies.vector, asrt]⟩
  · rw [h6]
    exact ⟨c!"g", _, rfl, [c!"alice", c!"admin"], by simp [Policies.vector, asrt],
      Or.inl ⟨by decide, _, _, _, rfl, rfl, rfl⟩⟩
  · rw [loadPolicy_throw (ad := ad) (e := e) (m' := m'.clearPolicy) rfl rfl]
    refine ⟨rfl, ?_, rfl⟩
    intro sec pt a hs hf
    simp only at hf
    rw [Model.find_clearPolicy, if_pos hs] at hf
    cases hm : m'.find sec pt with
    | none => rw [hm] at hf; simp at hf
    | some b =>
      rw [hm] at hf
      simp only [Option.map_some, Option.some.injEq] at hf
      subst hf
      rfl

/-- C43, what does hold: when the adapter fails without having stored anything, the definitions, the
role links, the flags and the watcher are as before, and the policy too if it was empty. -/
theorem C43_partial {E : Enforcer} {ad : Adapter} {e : Exn} (ha : E.adapter = some ad)
    (hl : ∀ m, ad.loadPolicy m = (.throw e, m)) :
    (loadPolicy E).1 = .throw e ∧
    (∀ sec pt, (E.model.find sec pt = none → (loadPolicy E).2.model.find sec pt = none) ∧
      ∀ a, E.model.find sec pt = some a → ∃ P,
        (loadPolicy E).2.model.find sec pt = some { a with policy := P } ∧
        P.hash = a.policy.hash ∧ (a.policy.items = [] → P = a.policy)) ∧
    (loadPolicy E).2.heap = E.heap ∧ (loadPolicy E).2.rm = E.rm ∧
    (loadPolicy E).2.watcher = E.watcher ∧ (loadPolicy E).2.eval = E.eval ∧
    (loadPolicy E).2.enabled = E.enabled ∧ (loadPolicy E).2.autoSave = E.autoSave ∧
    (loadPolicy E).2.autoBuild = E.autoBuild ∧ (loadPolicy E).2.autoNotify = E.autoNotify := by
  rw [loadPolicy_throw ha (hl _)]
  refine ⟨rfl, ?_, rfl, rfl, rfl, rfl, rfl, rfl, rfl, rfl⟩
  intro sec pt
  simp only [Model.find_clearPolicy]
  split
  · refine ⟨fun h => by rw [h]; rfl, ?_⟩
    intro a h
    refine ⟨a.policy.clear, by rw [h]; rfl, rfl, ?_⟩
    intro hi
    obtain ⟨k, v, t, ⟨hh, items⟩, rm⟩ := a
    simp only at hi
    subst hi
    rfl
  · exact ⟨fun h => h, fun a h => ⟨a.policy, h, rfl, fun _ => rfl⟩⟩

/-- The hypotheses of `C43_partial` can be met: an adapter without a file name. -/
example : (loadPolicy { acl [alice] with
    adapter := some ⟨.file [] none true false, []⟩ }).1 = .throw .adapter :=
  (C43_partial (ad := ⟨.file [] none true false, []⟩) (e := .adapter) rfl (fun _ => rfl)).1

end AdapterProps
end Casbin
