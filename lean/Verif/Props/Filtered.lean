import Verif.Filtered
import Verif.ModelLemmas
import Verif.Fixtures

/-!
# C92–C94: the filtered file adapter
-/

namespace Casbin
namespace FilteredProps

open FilteredFile Fixtures

/-! ## Specification -/

/-- The values of a line. -/
def values (l : Str) : List Str := (split l c!",").map trim

/-- The filter values that concern the line: those for rules of type `p` or `g`. -/
def wanted (f : Filter) (l : Str) : List Str :=
  if (values l).head? = some c!"p" then f.P
  else if (values l).head? = some c!"g" then f.G
  else []

/-- The line passes the filter: it has enough values, and each value that the filter asks for. -/
def Passes (f : Filter) (l : Str) : Prop :=
  (wanted f l).length < (values l).length ∧
  ∀ i v, (wanted f l)[i]? = some v → v ≠ [] → (values l)[i + 1]? = some (trim v)

/-! ## Helpers -/

theorem mismatch_spec (fs : List Str) : ∀ ws : List Str, fs.length ≤ ws.length →
    ∃ b, mismatch ws fs = .ok b ∧
      (b = false ↔ ∀ (i : Nat) (v : Str), fs[i]? = some v → v ≠ [] → (ws.map trim)[i]? = some (trim v)) := by
  induction fs with
  | nil => intro ws _; exact ⟨false, by cases ws <;> rfl, by simp⟩
  | cons f fs ih =>
    intro ws h
    match ws, h with
    | w :: ws, h =>
      obtain ⟨b, h1, h2⟩ := ih ws (by simpa using h)
      by_cases hc : f ≠ [] ∧ trim f ≠ trim w
      · refine ⟨true, by simp only [mismatch, hc, ne_eq, not_false_eq_true, and_self, if_true], ?_⟩
        simp only [Bool.true_eq_false, false_iff]
        intro hall
        have := hall 0 f rfl hc.1
        simp only [List.map_cons, List.getElem?_cons_zero, Option.some.injEq] at this
        exact hc.2 this.symm
      · refine ⟨b, by simp only [mismatch, hc, if_false]; exact h1, ?_⟩
        rw [h2]
        constructor
        · intro hall i v hi hv
          match i with
          | 0 =>
            simp only [List.getElem?_cons_zero, Option.some.injEq] at hi
            subst hi
            simp only [List.map_cons, List.getElem?_cons_zero, Option.some.injEq]
            by_contra hne
            exact hc ⟨hv, fun e => hne e.symm⟩
          | i + 1 => exact hall i v (by simpa using hi) hv
        · intro hall i v hi hv
          exact hall (i + 1) v (by simpa using hi) hv

theorem split_ne_nil (s d : Str) : split s d ≠ [] := by
  unfold split
  generalize (if 0 = 0 then splitLARGE else 0) - 1 = n
  cases n with
  | zero => simp [splitLoop]
  | succ n => rw [splitLoop]; split <;> simp

/-- `filterLine` skips a line that does not pass; for a line that passes it reads an uninitialised
variable. -/
theorem filterLine_spec (f : Filter) (l : Str) :
    (¬ Passes f l → filterLine l (some f) = .ok true) ∧
    (Passes f l → filterLine l (some f) = .ub .uninit) := by
  cases hs : split l c!"," with
  | nil => exact absurd hs (split_ne_nil _ _)
  | cons w ws =>
    have hv : values l = trim w :: ws.map trim := by simp [values, hs]
    have hw : wanted f l = if trim w = c!"p" then f.P else if trim w = c!"g" then f.G else [] := by
      simp [wanted, hv]
    simp only [filterLine, hs, ← hw]
    unfold Passes
    rw [hv]
    generalize wanted f l = want
    unfold filterWords
    by_cases hlen : (w :: ws).length < want.length + 1
    · rw [if_pos hlen]
      refine ⟨fun _ => rfl, fun h => ?_⟩
      have := h.1
      simp at this hlen
      omega
    · rw [if_neg hlen]
      obtain ⟨b, h1, h2⟩ := mismatch_spec want ws (by simp at hlen; omega)
      simp only [List.tail_cons, h1, List.getElem?_cons_succ]
      cases b with
      | true =>
        refine ⟨fun _ => rfl, fun h => ?_⟩
        have := h2.mpr h.2
        simp at this
      | false =>
        refine ⟨fun h => ?_, fun _ => rfl⟩
        exact absurd ⟨by simp at hlen ⊢; omega, h2.mp rfl⟩ h

/-- Loading with a filter: nothing is loaded, and the first line that passes ends it. -/
theorem filteredLines_spec (f : Filter) (ls : List Str) (m : Model) :
    ((∀ l ∈ ls, ¬ Passes f l) → filteredLines (some f) ls m = (.ok (), m)) ∧
    ((∃ l ∈ ls, Passes f l) → filteredLines (some f) ls m = (.ub .uninit, m)) := by
  induction ls with
  | nil => exact ⟨fun _ => rfl, fun h => by simp at h⟩
  | cons l ls ih =>
    by_cases hp : Passes f l
    · refine ⟨fun h => absurd hp (h l (List.mem_cons_self ..)), fun _ => ?_⟩
      simp only [filteredLines, M.bind_run, M.lift_run, (filterLine_spec f l).2 hp]
    · have e : filteredLines (some f) (l :: ls) m = filteredLines (some f) ls m := by
        simp only [filteredLines, M.bind_run, M.lift_run, (filterLine_spec f l).1 hp, if_true]
      rw [e]
      refine ⟨fun h => ih.1 fun l' h' => h l' (List.mem_cons_of_mem _ h'), fun h => ih.2 ?_⟩
      obtain ⟨l', h1, h2⟩ := h
      rcases List.mem_cons.mp h1 with rfl | h1
      · exact absurd h2 hp
      · exact ⟨l', h1, h2⟩

/-! ## C92 -/

/-- The lines of a file as they are loaded. -/
def fileLines (text : Str) : List Str := (getLines text).map trim

/-- C92: loading with a filter loads the lines that pass it and no others; proved for the case that
there are none, when nothing is loaded and the adapter counts as filtered. Missing from the property:
files with a line that passes, which includes all blank lines, comments and rules of other types than
`p` and `g` (`C92_fails`: the behaviour is undefined for every such file). -/
theorem C92_loadFiltered_partial (f : Filter) (F : FilteredFile) (m : Model) (hp : F.path ≠ [])
    {text : Str} (hd : F.disk = some text) (h : ∀ l ∈ fileLines text, ¬ Passes f l) :
    loadFiltered (some f) (F, m) = (.ok (), ({ F with filtered := true }, m)) := by
  have h1 := (filteredLines_spec f (fileLines text) m).1 h
  rcases F with ⟨path, disk, fl⟩
  subst hd
  simp only [loadFiltered, loadRest, M.bind_run, M.get_run, hp, if_false, FilteredFile.onModel,
    loadFilteredFile]
  unfold fileLines at h1
  rw [h1]
  rfl

/-- C92 fails for every file with a line that passes the filter: the function reads an uninitialised
variable before it has loaded anything. So a filtered load that returns has loaded nothing. -/
theorem C92_fails (f : Filter) (F : FilteredFile) (m : Model) (hp : F.path ≠ [])
    {text : Str} (hd : F.disk = some text) (h : ∃ l ∈ fileLines text, Passes f l) :
    loadFiltered (some f) (F, m) = (.ub .uninit, (F, m)) := by
  have h1 := (filteredLines_spec f (fileLines text) m).2 h
  simp only [loadFiltered, loadRest, M.bind_run, M.get_run, hp, if_false, FilteredFile.onModel,
    loadFilteredFile, hd]
  unfold fileLines at h1
  rw [h1]

/-- A file with the rule of `alice`. -/
def aliceFile : FilteredFile := FilteredFile.new c!"policy.csv" (some c!"p, alice, data1, read")

/-- Decides `Passes` by its two parts. -/
theorem passes_iff (f : Filter) (l : Str) : Passes f l ↔
    (wanted f l).length < (values l).length ∧
    ∀ i, ∀ h : i < (wanted f l).length, (wanted f l)[i] ≠ [] →
      (values l)[i + 1]? = some (trim (wanted f l)[i]) := by
  unfold Passes
  refine and_congr_right fun _ => ⟨fun h i hi hv => h i _ (List.getElem?_eq_getElem hi) hv, ?_⟩
  intro h i v hi hv
  obtain ⟨hl, rfl⟩ := List.getElem?_eq_some_iff.mp hi
  exact h i hl hv

instance (f : Filter) (l : Str) : Decidable (Passes f l) := decidable_of_iff _ (passes_iff f l).symm

example : loadFiltered (some { P := [c!"bob"], G := [] }) (aliceFile, aclModel (.vector [])) =
    (.ok (), (aliceFile, aclModel (.vector []))) :=
  C92_loadFiltered_partial _ aliceFile _ (by decide) rfl (by decide +kernel)
example : loadFiltered (some { P := [[], c!"data1"], G := [] }) (aliceFile, aclModel (.vector [])) =
    (.ub .uninit, (aliceFile, aclModel (.vector []))) :=
  C92_fails _ aliceFile _ (by decide) rfl (by decide +kernel)

/-! ## C93 -/

/-- Every policy is kept in a set. -/
def InSets (m : Model) : Prop := ∀ s t a, m.find s t = some a → a.policy.hash = true

/-- Loading the line again changes nothing. -/
def Absorbs (m : Model) (l : Str) : Prop :=
  (l = [] ∨ l.head? = some '#') ∨ ∃ key vals a, trimAll (split l c!",") = key :: vals ∧
    m.find (key.take 1) key = some a ∧ a.policy.hash = true ∧ vals ∈ a.policy.items

theorem absorbs_run {m : Model} {l : Str} (h : Absorbs m l) : loadPolicyLine l m = (.ok (), m) := by
  unfold loadPolicyLine
  rcases h with h | ⟨key, vals, a, h1, h2, h3, h4⟩
  · rw [if_pos h]; rfl
  · split
    · rfl
    · simp only [h1, M.bind_run, Model.at_run h2, Model.setPolicy_run h2]
      have : a.policy.emplace vals = a.policy := by simp [Policies.emplace, h3, h4]
      rw [this, show ({ a with policy := a.policy } : Assertion) = a from rfl,
        Model.put_self _ _ _ _ h2]

/-- What loading a line does. -/
theorem line_step {m m' : Model} {l : Str} (h : loadPolicyLine l m = (.ok (), m')) (hs : InSets m) :
    InSets m' ∧ Absorbs m' l ∧ ∀ l', Absorbs m l' → Absorbs m' l' := by
  unfold loadPolicyLine at h
  by_cases hi : l = [] ∨ l.head? = some '#'
  · rw [if_pos hi] at h
    cases h
    exact ⟨hs, .inl hi, fun _ h => h⟩
  · rw [if_neg hi] at h
    cases hk : trimAll (split l c!",") with
    | nil => rw [hk] at h; cases h
    | cons key vals =>
      rw [hk] at h
      simp only at h
      cases ha : m.find (key.take 1) key with
      | none => simp only [M.bind_run, Model.at_none ha] at h; cases h
      | some a =>
        simp only [M.bind_run, Model.at_run ha, Model.setPolicy_run ha] at h
        cases h
        have hh := hs _ _ _ ha
        have hh' : (a.policy.emplace vals).hash = true := by
          unfold Policies.emplace
          rw [if_pos hh]
          split <;> exact hh
        have hmem : ∀ x, x ∈ (a.policy.emplace vals).items ↔ x ∈ a.policy.items ∨ x = vals :=
          fun x => Policies.mem_emplace ..
        refine ⟨?_, ?_, ?_⟩
        · intro s t b hb
          rw [Model.find_put] at hb
          split at hb
          · cases hb; exact hh'
          · exact hs s t b hb
        · exact .inr ⟨key, vals, _, hk, Model.find_put_self .., hh', (hmem _).mpr (.inr rfl)⟩
        · rintro l' (h | ⟨k', v', a', e1, e2, e3, e4⟩)
          · exact .inl h
          · by_cases hkk : key.take 1 = k'.take 1 ∧ key = k'
            · obtain ⟨_, rfl⟩ := hkk
              rw [ha] at e2; cases e2
              exact .inr ⟨key, v', _, e1, Model.find_put_self .., hh', (hmem _).mpr (.inl e4)⟩
            · exact .inr ⟨k', v', a', e1, by rw [Model.find_put_ne _ _ hkk]; exact e2, e3, e4⟩

theorem lines_step (ls : List Str) : ∀ {m m' : Model}, loadLines ls m = (.ok (), m') → InSets m →
    InSets m' ∧ (∀ l ∈ ls, Absorbs m' l) ∧ ∀ l', Absorbs m l' → Absorbs m' l' := by
  induction ls with
  | nil => intro m m' h hs; cases h; exact ⟨hs, by simp, fun _ h => h⟩
  | cons l ls ih =>
    intro m m' h hs
    rcases hx : loadPolicyLine l m with ⟨o, m1⟩
    simp only [loadLines, M.bind_run, hx] at h
    cases o with
    | throw e => cases h
    | ub u => cases h
    | ok _ =>
      obtain ⟨g1, g2, g3⟩ := line_step hx hs
      obtain ⟨k1, k2, k3⟩ := ih h g1
      refine ⟨k1, ?_, fun l' h' => k3 l' (g3 l' h')⟩
      intro l' hl'
      rcases List.mem_cons.mp hl' with rfl | hl'
      · exact k3 _ g2
      · exact k2 l' hl'

theorem filteredLines_none (ls : List Str) (m : Model) : filteredLines none ls m = loadLines ls m := by
  induction ls generalizing m with
  | nil => rfl
  | cons l ls ih =>
    simp only [filteredLines, loadLines, M.bind_run, M.lift_run, filterLine, Bool.false_eq_true,
      if_false]
    rcases hx : loadPolicyLine l m with ⟨o, m1⟩
    cases o with
    | ok _ => exact ih m1
    | throw _ => rfl
    | ub _ => rfl

theorem loadLines_again (ls : List Str) {m : Model} (h : ∀ l ∈ ls, Absorbs m l) :
    loadLines ls m = (.ok (), m) := by
  induction ls with
  | nil => rfl
  | cons l ls ih =>
    simp only [loadLines, M.bind_run, absorbs_run (h l (List.mem_cons_self ..))]
    exact ih fun l' h' => h l' (List.mem_cons_of_mem _ h')

/-- C93: with a null filter the rules are those that `LoadPolicy` loads, in models whose policies are
kept in sets. Missing from the property: policies kept in vectors, as all policies are by default, and
the flag `filtered` (`C93_fails`). -/
theorem C93_nullFilter_partial (F F' : FilteredFile) {m m' : Model} (hs : InSets m)
    (h : loadPolicy (F, m) = (.ok (), (F', m'))) :
    ∃ F'', loadFiltered none (F, m) = (.ok (), (F'', m')) := by
  have hl := h
  simp only [loadPolicy, FilteredFile.setFiltered, FilteredFile.onModel, M.bind_run, M.modify_run,
    Adapter.loadPolicy] at hl
  by_cases hp : F.path = []
  · simp [hp] at hl
  · simp only [hp, if_false, Prod.mk.injEq] at hl
    obtain ⟨h1, hF, h2⟩ := hl
    subst hF
    refine ⟨{ F with filtered := true }, ?_⟩
    simp only [loadFiltered, loadRest, M.bind_run, h, M.get_run, hp, if_false, FilteredFile.onModel,
      loadFilteredFile]
    cases hd : F.disk with
    | none => rfl
    | some text =>
      rw [hd] at h1 h2
      simp only at h1 h2
      have hrun : loadLines ((getLines text).map trim) m = (.ok (), m') := Prod.ext h1 h2
      obtain ⟨_, g2, _⟩ := lines_step _ hrun hs
      simp only [filteredLines_none, loadLines_again _ g2]
      rfl

/-- A model with a policy type whose rules are kept in a set. -/
def setModel : Model :=
  [(c!"p", [(c!"p", asrt c!"p" c!"sub, obj, act" [c!"p_sub", c!"p_obj", c!"p_act"]
    { hash := true, items := [] })])]

example : ∃ F' F'' m', loadPolicy (aliceFile, setModel) = (.ok (), (F', m')) ∧
    loadFiltered none (aliceFile, setModel) = (.ok (), (F'', m')) ∧
    (m'.find c!"p" c!"p").map (fun a => a.policy.items) = some [alice] := by
  have hs : InSets setModel := by
    intro s t a ha
    by_cases h1 : c!"p" = s
    · by_cases h2 : c!"p" = t
      · subst h1 h2; cases ha; rfl
      · subst h1; simp [Model.find, setModel, UMap.get, h2] at ha
    · simp [Model.find, setModel, UMap.get, h1] at ha
  obtain ⟨F'', h⟩ := C93_nullFilter_partial aliceFile _ hs rfl
  exact ⟨_, F'', _, rfl, h, by decide +kernel⟩

/-- C93 fails for policies kept in vectors: every rule is stored twice; and the policy counts as
filtered, so that it cannot be saved. -/
theorem C93_fails : ∃ (F : FilteredFile) (m : Model) (F1 F2 : FilteredFile) (m1 m2 : Model),
    loadPolicy (F, m) = (.ok (), (F1, m1)) ∧ F1.isFiltered = false ∧
    (m1.find c!"p" c!"p").map (fun a => a.policy.items) = some [alice] ∧
    loadFiltered none (F, m) = (.ok (), (F2, m2)) ∧ F2.isFiltered = true ∧
    (m2.find c!"p" c!"p").map (fun a => a.policy.items) = some [alice, alice] :=
  ⟨aliceFile, aclModel (.vector []), _, _, _, _, rfl, by decide +kernel, by decide +kernel, rfl,
    by decide +kernel, by decide +kernel⟩

/-! ## C94 -/

/-- The calls of the adapter. -/
inductive Op
  | load
  | loadFiltered (f : Option Filter)
  | save

/-- A call. -/
def Op.run : Op → M (FilteredFile × Model) Unit
  | .load => loadPolicy
  | .loadFiltered f => FilteredFile.loadFiltered f
  | .save => savePolicy

/-- The state after a sequence of calls, whatever each of them does. -/
def runOps : List Op → FilteredFile × Model → FilteredFile × Model
  | [], s => s
  | o :: os, s => runOps os (o.run s).2

theorem op_disk (o : Op) (s : FilteredFile × Model) : (o.run s).2.1.disk = s.1.disk := by
  cases o with
  | load => rfl
  | save =>
    simp only [Op.run, savePolicy, M.bind_run, M.get_run]
    split <;> rfl
  | loadFiltered f =>
    have key : ∀ s : FilteredFile × Model, (loadRest f s).2.1.disk = s.1.disk := by
      intro s
      simp only [loadRest, M.bind_run, M.get_run]
      by_cases hp : s.1.path = []
      · rw [if_pos hp]; rfl
      · rw [if_neg hp]
        simp only [M.bind_run, FilteredFile.onModel]
        rcases loadFilteredFile s.1 f s.2 with ⟨o, m⟩
        cases o <;> rfl
    cases f with
    | some f => exact key s
    | none =>
      simp only [Op.run, FilteredFile.loadFiltered, M.bind_run]
      have hl : (loadPolicy s).2.1.disk = s.1.disk := rfl
      rcases hx : loadPolicy s with ⟨o, s1⟩
      rw [hx] at hl
      cases o with
      | ok _ => exact (key s1).trans hl
      | throw _ => exact hl
      | ub _ => exact hl

/-- C94, the first half: a policy that was loaded with a filter is never written to the file: `SavePolicy`
throws, and no sequence of calls changes the file. Missing from the property: that an unfiltered policy
can be saved (`C94_fails`). -/
theorem C94_filteredNotSaved_partial (ops : List Op) (s : FilteredFile × Model) :
    (runOps ops s).1.disk = s.1.disk ∧
    ∀ f s', FilteredFile.loadFiltered f (runOps ops s) = (.ok (), s') →
      savePolicy s' = (.throw .adapter, s') ∧ s'.1.disk = s.1.disk := by
  have hd : (runOps ops s).1.disk = s.1.disk := by
    induction ops generalizing s with
    | nil => rfl
    | cons o os ih => exact (ih (o.run s).2).trans (op_disk o s)
  refine ⟨hd, ?_⟩
  intro f s' h
  have hs : s'.1.disk = (runOps ops s).1.disk := by
    have := op_disk (.loadFiltered f) (runOps ops s)
    rw [show (Op.loadFiltered f).run = FilteredFile.loadFiltered f from rfl, h] at this
    exact this
  refine ⟨?_, hs.trans hd⟩
  have hf : s'.1.filtered = true := by
    have key : ∀ s, loadRest f s = (.ok (), s') → s'.1.filtered = true := by
      intro s hk
      simp only [loadRest, M.bind_run, M.get_run] at hk
      by_cases hp : s.1.path = []
      · rw [if_pos hp] at hk; cases hk
      · rw [if_neg hp] at hk
        simp only [M.bind_run, FilteredFile.onModel] at hk
        rcases hx : loadFilteredFile s.1 f s.2 with ⟨o, m⟩
        rw [hx] at hk
        cases o with
        | ok _ => cases hk; rfl
        | throw _ => cases hk
        | ub _ => cases hk
    cases f with
    | some f => exact key _ h
    | none =>
      simp only [FilteredFile.loadFiltered, M.bind_run] at h
      rcases hx : loadPolicy (runOps ops s) with ⟨o, s1⟩
      rw [hx] at h
      cases o with
      | ok _ => exact key _ h
      | throw _ => cases h
      | ub _ => cases h
  simp only [savePolicy, M.bind_run, M.get_run, hf, if_true]
  rfl

example : ∃ s', FilteredFile.loadFiltered (some { P := [c!"bob"], G := [] })
      (runOps [.load] (aliceFile, aclModel (.vector []))) = (.ok (), s') ∧
    savePolicy s' = (.throw .adapter, s') := by
  have h := C92_loadFiltered_partial { P := [c!"bob"], G := [] }
    (runOps [.load] (aliceFile, aclModel (.vector []))).1
    (runOps [.load] (aliceFile, aclModel (.vector []))).2 (by decide) rfl (by decide +kernel)
  exact ⟨_, h, ((C94_filteredNotSaved_partial [.load] (aliceFile, aclModel (.vector []))).2 _ _ h).1⟩

/-- The call reads the whole file. -/
def Op.Whole : Op → Prop
  | .load => True
  | .loadFiltered f => f = none
  | .save => False

/-- C94: an adapter that has not yet read the whole file counts as filtered and never saves, whatever
else was called. -/
theorem C94_new (path : Str) (disk : Option Str) (m : Model) (ops : List Op)
    (h : ∀ o ∈ ops, ¬ o.Whole) :
    let s := runOps ops (FilteredFile.new path disk, m)
    s.1.isFiltered = true ∧ savePolicy s = (.throw .adapter, s) := by
  have key : ∀ (ops : List Op) (s : FilteredFile × Model), (∀ o ∈ ops, ¬ o.Whole) →
      s.1.filtered = true → (runOps ops s).1.filtered = true := by
    intro ops
    induction ops with
    | nil => intro s _ hs; exact hs
    | cons o os ih =>
      intro s ho hs
      refine ih _ (fun o' h' => ho o' (List.mem_cons_of_mem _ h')) ?_
      have hw := ho o (List.mem_cons_self ..)
      cases o with
      | load => exact absurd trivial hw
      | save =>
        simp only [Op.run, savePolicy, M.bind_run, M.get_run, hs, if_true]
        exact hs
      | loadFiltered f =>
        cases f with
        | none => exact absurd rfl hw
        | some f =>
          simp only [Op.run, FilteredFile.loadFiltered, loadRest, M.bind_run, M.get_run]
          by_cases hp : s.1.path = []
          · rw [if_pos hp]; exact hs
          · rw [if_neg hp]
            simp only [M.bind_run, FilteredFile.onModel]
            rcases loadFilteredFile s.1 (some f) s.2 with ⟨o, m⟩
            cases o with
            | ok _ => rfl
            | throw _ => exact hs
            | ub _ => exact hs
  have hf := key ops (FilteredFile.new path disk, m) h rfl
  refine ⟨hf, ?_⟩
  simp only [savePolicy, M.bind_run, M.get_run, hf, if_true]
  rfl

example : savePolicy (runOps [.save, .loadFiltered (some { P := [c!"bob"], G := [] })]
      (aliceFile, aclModel (.vector []))) =
    (.throw .adapter, runOps [.save, .loadFiltered (some { P := [c!"bob"], G := [] })]
      (aliceFile, aclModel (.vector []))) :=
  (C94_new _ _ _ _ (by simp [Op.Whole])).2

/-- C94 fails for unfiltered policies: after any sequence of calls `SavePolicy` does not return, and
when the policy was loaded completely it calls itself for ever. -/
theorem C94_fails (ops : List Op) (s : FilteredFile × Model) :
    (∀ s', savePolicy (runOps ops s) ≠ (.ok (), s')) ∧
    ∀ s', loadPolicy (runOps ops s) = (.ok (), s') → (savePolicy s').1 = .ub .unbounded := by
  constructor
  · intro s'
    simp only [savePolicy, M.bind_run, M.get_run]
    split
    · intro h; cases h
    · intro h; cases h
  · intro s' h
    have : s'.1.filtered = false := by
      simp only [loadPolicy, FilteredFile.setFiltered, FilteredFile.onModel, M.bind_run,
        M.modify_run] at h
      have := congrArg (fun p => p.2.1.filtered) h
      exact this.symm
    simp only [savePolicy, M.bind_run, M.get_run, this, Bool.false_eq_true, if_false]
    rfl

example : ∃ s', loadPolicy (runOps [] (aliceFile, aclModel (.vector []))) = (.ok (), s') ∧
    (savePolicy s').1 = .ub .unbounded :=
  ⟨_, rfl, (C94_fails [] (aliceFile, aclModel (.vector []))).2 _ rfl⟩

end FilteredProps
end Casbin
