import Verif.EndToEndLemmas
import Verif.Props.Adapters
import Verif.Props.Links

/-!
# Histories with loading, saving and rebuilding
-/

namespace Casbin

open Enforcer DecisionProps AdapterProps

/-- What a client of the enforcer does: an editing call or a request, `LoadPolicy`, `SavePolicy`,
`BuildRoleLinks`, `SetAdapter`, `SetWatcher`, `EnableAutoSave` or `EnableAutoNotifyWatcher`. -/
inductive Deed
  | act (a : Act)
  | load
  | save
  | rebuild
  | setAdapter (a : Adapter)
  | setWatcher (w : Watcher)
  | autoSave (b : Bool)
  | autoNotify (b : Bool)

/-- The adapter loads exactly these rules, which are of policy and grouping types. The last part of `into`
is about the representation of a map as a list. -/
structure LoadsRules (E : Enforcer) (rules : List (Str × Rule)) : Prop where
  into : ∃ ad m', E.adapter = some ad ∧ ad.loadPolicy E.model.clearPolicy = (.ok (), m') ∧
    Extended E.model.clearPolicy m' rules ∧ (m'.secMap c!"g").keys.Nodup
  types : ∀ x ∈ rules, x.1.take 1 = c!"p" ∨ x.1.take 1 = c!"g"

/-- The grouping rules are long enough for their definitions. -/
def LongEnough (E : Enforcer) (rules : List (Str × Rule)) : Prop :=
  ∀ x ∈ rules, ∀ a, E.model.find c!"g" x.1 = some a → countChar '_' a.value ≤ x.2.length

variable [IterOrder]

/-- The enforcer after the deed. -/
def Deed.run (lib : ExprLib) : Deed → Enforcer → Enforcer
  | .act a, E => a.run lib E
  | .load, E => (loadPolicy E).2
  | .save, E => (savePolicy E).2
  | .rebuild, E => (buildRoleLinks E).2
  | .setAdapter a, E => (Enforcer.setAdapter a E).2
  | .setWatcher w, E => (Enforcer.setWatcher w E).2
  | .autoSave b, E => (enableAutoSave b E).2
  | .autoNotify b, E => (enableAutoNotify b E).2

def runDeeds (lib : ExprLib) : List Deed → Enforcer → Enforcer
  | [], E => E
  | d :: ds, E => runDeeds lib ds (d.run lib E)

/-- Every load of the history loads rules. -/
def LoadableDeeds (lib : ExprLib) : List Deed → Enforcer → Prop
  | [], _ => True
  | .load :: ds, E => (∃ rules, LoadsRules E rules) ∧ LoadableDeeds lib ds (Deed.run lib .load E)
  | d :: ds, E => LoadableDeeds lib ds (d.run lib E)

/-- Every editing call of the history returns and is faithful in the state it meets, and every load loads
rules long enough for their definitions. -/
def FaithfulDeeds (lib : ExprLib) : List Deed → Enforcer → Prop
  | [], _ => True
  | .act a :: ds, E => FaithfulActs lib [a] E ∧ FaithfulDeeds lib ds (Deed.run lib (.act a) E)
  | .load :: ds, E => (∃ rules, LoadsRules E rules ∧ LongEnough E rules) ∧
      FaithfulDeeds lib ds (Deed.run lib .load E)
  | d :: ds, E => FaithfulDeeds lib ds (d.run lib E)

/-- What a deed keeps. -/
def KeepsLinked (lib : ExprLib) (E E' : Enforcer) (r p e : Assertion) (exp : Str) : Prop :=
  ∃ p', p'.tokens = p.tokens ∧ Linked lib E' r p' e exp ∧
    (∀ t, (E.model.find c!"g" t).map Assertion.value = (E'.model.find c!"g" t).map Assertion.value) ∧
    (p.policy.hash = false → p'.policy.hash = false)

variable {lib : ExprLib} {E E' : Enforcer} {r p e : Assertion} {exp : Str}

omit [IterOrder] in
theorem Setup.stable (h : Setup lib E r p e exp)
    (hs : Stable True E.model E.rm p.tokens E.eval E.enabled E') :
    ∃ p', p'.tokens = p.tokens ∧ Setup lib E' r p' e exp := by
  obtain ⟨p', ht, hr⟩ := Stable.ready h.ready hs
  refine ⟨p', ht, ⟨hr, hs.enabled.trans h.enabled, ?_, ?_, h.nonempty, h.noEval⟩⟩
  · rw [hs.other _ _ (by simp) (by simp)]; exact h.effect
  · have := h.matcher
    unfold matcherOf at this ⊢
    rw [hs.other _ _ (by simp) (by simp)]; exact this

omit [IterOrder] in
theorem Linked.stable (h : Linked lib E r p e exp)
    (hs : Stable True E.model E.rm p.tokens E.eval E.enabled E') (hm : Mirrors 10 E')
    (ha : E'.autoBuild = true)
    (hh : ∀ p', E'.model.find c!"p" c!"p" = some p' → p.policy.hash = false → p'.policy.hash = false) :
    KeepsLinked lib E E' r p e exp := by
  obtain ⟨p', ht, hr⟩ := h.setup.stable hs
  exact ⟨p', ht, ⟨hr, hm, ha⟩, fun t => (hs.vals t).symm, hh p' hr.ready.state.defs.findP⟩

theorem Linked.rebuild (h : Linked lib E r p e exp) : KeepsLinked lib E (buildRoleLinks E).2 r p e exp := by
  obtain ⟨E', h1, h2, h3⟩ := buildRoleLinks_mirrors h.mirrors.links.noPat h.mirrors.groups
  have hs := keeps_buildRoleLinks E h.setup.ready.stable
  rw [h1] at hs ⊢
  refine h.stable hs h3 (h2.2.2.2.2.2.2.2.1.trans h.auto) ?_
  intro p' hp'
  obtain ⟨x, hx⟩ := h2.1.some h.setup.ready.state.defs.findP
  rw [hx] at hp'; cases hp'; exact id

omit [IterOrder] in
theorem find_loaded {m m' : Model} {rules : List (Str × Rule)} (hE : Extended m.clearPolicy m' rules)
    (ht : ∀ x ∈ rules, x.1.take 1 = c!"p" ∨ x.1.take 1 = c!"g") (s t : Str) :
    (m.find s t = none → m'.find s t = none) ∧
    ∀ a, m.find s t = some a → ∃ P, m'.find s t = some { a with policy := P } ∧
      P.hash = a.policy.hash ∧ (s ≠ c!"p" → s ≠ c!"g" → P = a.policy) ∧
      (s = c!"p" ∨ s = c!"g" → ∀ r, r ∈ P.items ↔ s = t.take 1 ∧ r ∈ rulesOf rules t) := by
  obtain ⟨h1, h2⟩ := hE s t
  rw [Model.find_clearPolicy] at h1 h2
  by_cases hs : s = c!"p" ∨ s = c!"g"
  · rw [if_pos hs] at h1 h2
    refine ⟨fun h => h1 (by rw [h]; rfl), fun a ha => ?_⟩
    rw [ha] at h2
    obtain ⟨P, p1, p2, _, p4, _⟩ := h2 _ rfl
    exact ⟨P, p1, p2, fun h h' => absurd hs (by simp [h, h']), fun _ r => by
      rw [p4 r]; simp [Policies.clear]⟩
  · rw [if_neg hs] at h1 h2
    refine ⟨h1, fun a ha => ?_⟩
    obtain ⟨P, p1, p2, _, _, _, p6⟩ := h2 _ ha
    refine ⟨P, p1, p2, fun _ _ => p6 ?_, fun h => absurd h hs⟩
    by_contra hc
    simp only [not_or, ne_eq, not_not] at hc
    obtain ⟨hc1, hc2⟩ := hc
    obtain ⟨r, hr⟩ := List.exists_mem_of_ne_nil _ hc2
    have : (t, r) ∈ rules := by
      unfold rulesOf at hr
      simp only [List.mem_map, List.mem_filter] at hr
      obtain ⟨x, ⟨hx, hxt⟩, rfl⟩ := hr
      simp only [decide_eq_true_eq] at hxt
      subst hxt; exact hx
    have := ht _ this
    simp only at this
    rw [← hc1] at this
    exact hs this

omit [IterOrder] in
theorem Ready.load_stable (h : Ready lib E r p) {m' : Model} {rules : List (Str × Rule)}
    (hE : Extended E.model.clearPolicy m' rules) (hk : (m'.secMap c!"g").keys.Nodup)
    (ht : ∀ x ∈ rules, x.1.take 1 = c!"p" ∨ x.1.take 1 = c!"g") (a : Option Adapter) :
    Stable True E.model E.rm p.tokens E.eval E.enabled { E with model := m', adapter := a } := by
  have hf := find_loaded hE ht
  have h0 := h.stable
  refine ⟨fun s t h1 h2 => ?_, ?_, fun t => ?_, fun _ t a' ha' => ?_, hk, rfl, h0.heap, h0.idx, rfl, rfl⟩
  · show m'.find s t = _
    cases hfa : E.model.find s t with
    | none => exact (hf _ _).1 hfa
    | some a =>
      obtain ⟨P, p1, _, p3, _⟩ := (hf _ _).2 a hfa
      rw [p1, p3 h2 h1]
  · obtain ⟨P, p1, _⟩ := (hf _ _).2 p h.state.defs.findP
    exact ⟨_, p1, rfl⟩
  · show (m'.find _ _).map _ = _
    cases hfa : E.model.find c!"g" t with
    | none => rw [(hf _ _).1 hfa]
    | some a =>
      obtain ⟨P, p1, _⟩ := (hf _ _).2 a hfa
      rw [p1]; rfl
  · have ha'' : m'.find c!"g" t = some a' := ha'
    cases hfa : E.model.find c!"g" t with
    | none => rw [(hf _ _).1 hfa] at ha''; cases ha''
    | some a =>
      obtain ⟨P, p1, _⟩ := (hf _ _).2 a hfa
      rw [p1] at ha''
      cases ha''
      exact h.ptr t a hfa

/-- A load keeps the enforcer linked. -/
theorem Linked.load (h : Linked lib E r p e exp) {rules : List (Str × Rule)} (hl : LoadsRules E rules)
    (hlong : LongEnough E rules) :
    KeepsLinked lib E (loadPolicy E).2 r p e exp ∧ (loadPolicy E).1 = .ok () := by
  obtain ⟨ad, m', ha, hld, hE, hk⟩ := hl.into
  have hf := find_loaded hE hl.types
  rw [loadPolicy_ok ha hld, if_pos h.auto]
  set E1 : Enforcer := { E with model := m', adapter := some { ad with log := ad.log ++ [.load] } } with hE1
  have hg : GroupsOk E1.model := by
    intro t a' ha'
    cases hfa : E.model.find c!"g" t with
    | none => rw [show E1.model = m' from rfl, (hf _ _).1 hfa] at ha'; cases ha'
    | some a =>
      obtain ⟨P, p1, _, _, p4⟩ := (hf _ _).2 a hfa
      rw [show E1.model = m' from rfl, p1] at ha'
      cases ha'
      refine ⟨(h.mirrors.groups t a hfa).1, fun r hr => ?_⟩
      obtain ⟨_, hr'⟩ := (p4 (Or.inr rfl) r).mp hr
      unfold rulesOf at hr'
      simp only [List.mem_map, List.mem_filter] at hr'
      obtain ⟨x, ⟨hx, hxt⟩, rfl⟩ := hr'
      simp only [decide_eq_true_eq] at hxt
      subst hxt
      exact hlong x hx a hfa
  have hst := h.setup.ready.load_stable hE hk hl.types ( some { ad with log := ad.log ++ [.load] })
  obtain ⟨E2, h1, h2, h3⟩ := buildRoleLinks_mirrors (E := E1) (h.mirrors.links.noPat.of_heap rfl rfl) hg
  have hs := keeps_buildRoleLinks E1 hst
  rw [h1] at hs ⊢
  refine ⟨h.stable hs h3 (h2.2.2.2.2.2.2.2.1.trans h.auto) ?_, rfl⟩
  intro p' hp' hh
  obtain ⟨P, p1, p2, _⟩ := (hf _ _).2 p h.setup.ready.state.defs.findP
  obtain ⟨x, hx⟩ := h2.1.some (show E1.model.find _ _ = _ from p1)
  rw [hx] at hp'; cases hp'
  exact p2.trans hh

theorem savePolicy_state (E : Enforcer) : (savePolicy E).2 = E ∨ ∃ ad w, (savePolicy E).2 =
    { E with model := (E.model.ensureSec c!"p").ensureSec c!"g", adapter := ad, watcher := w } := by
  unfold savePolicy
  simp only [M.bind_run, M.get_run]
  cases ha : E.adapter with
  | none => exact .inl rfl
  | some ad =>
    simp only
    split
    · exact .inl rfl
    · right
      simp only [onModel, onAdapter, M.bind_run, M.modify_run, M.get_run, ha]
      rcases hs : Adapter.savePolicy ((E.model.ensureSec c!"p").ensureSec c!"g") ad with ⟨o, ad'⟩
      cases o <;> exact ⟨_, _, rfl⟩

theorem Ready.save_stable (h : Ready lib E r p) :
    Stable True E.model E.rm p.tokens E.eval E.enabled (savePolicy E).2 := by
  rcases savePolicy_state E with h1 | ⟨ad, w, h1⟩
  · rw [h1]; exact h.stable
  · rw [h1]
    have hf := find_ensured E.model
    have h0 := h.stable
    refine ⟨fun s t _ _ => hf s t, ⟨p, (hf _ _).trans h.state.defs.findP, rfl⟩,
      fun t => by rw [hf], fun _ t a ha => h.ptr t a (by rw [← hf]; exact ha), ?_, rfl,
      h0.heap, h0.idx, rfl, rfl⟩
    simp only [secMap_ensured]; exact h0.keys

theorem Linked.save (h : Linked lib E r p e exp) : KeepsLinked lib E (savePolicy E).2 r p e exp := by
  have hs := h.setup.ready.save_stable
  rcases savePolicy_state E with h1 | ⟨ad, w, h1⟩
  · rw [h1]; exact ⟨p, rfl, h, fun _ => rfl, id⟩
  · have hf := find_ensured E.model
    rw [h1] at hs ⊢
    refine h.stable hs (LinkProps.sameG_mirrors h.mirrors (fun t => hf _ _) rfl rfl) h.auto ?_
    intro p' hp'
    rw [show (Enforcer.model _) = _ from rfl, hf, h.setup.ready.state.defs.findP] at hp'
    cases hp'; exact id

omit [IterOrder] in
theorem Ready.plain (h : Ready lib E r p) (ad : Option Adapter) (w : Option Watcher) (a b : Bool) :
    Stable True E.model E.rm p.tokens E.eval E.enabled
      { E with adapter := ad, watcher := w, autoSave := a, autoNotify := b } := by
  obtain ⟨h1, h2, h3, h4, h5, h6, h7, h8, h9, h10⟩ := h.stable
  exact ⟨h1, h2, h3, h4, h5, h6, h7, h8, h9, h10⟩

omit [IterOrder] in
/-- A change of the adapter, the watcher or the other switches. -/
theorem Linked.plain (h : Linked lib E r p e exp) (ad : Option Adapter) (w : Option Watcher) (a b : Bool) :
    KeepsLinked lib E { E with adapter := ad, watcher := w, autoSave := a, autoNotify := b } r p e exp :=
  h.stable (h.setup.ready.plain ..) ⟨h.mirrors.groups, h.mirrors.links.of_heap rfl rfl⟩ h.auto
    (fun p' hp' => by
      rw [show (Enforcer.model _) = E.model from rfl, h.setup.ready.state.defs.findP] at hp'
      cases hp'; exact id)

theorem Setup.deed (h : Setup lib E r p e exp) (d : Deed) (hd : d = .load → ∃ rules, LoadsRules E rules) :
    ∃ p', p'.tokens = p.tokens ∧ Setup lib (d.run lib E) r p' e exp := by
  cases d with
  | act a => exact h.act a
  | load =>
    obtain ⟨rules, hl⟩ := hd rfl
    obtain ⟨ad, m', ha, hld, hE, hk⟩ := hl.into
    have hst := h.ready.load_stable hE hk hl.types (some { ad with log := ad.log ++ [.load] })
    refine h.stable ?_
    simp only [Deed.run]
    rw [loadPolicy_ok ha hld]
    split
    · exact keeps_buildRoleLinks _ hst
    · exact hst
  | save => exact h.stable h.ready.save_stable
  | rebuild => exact h.stable (keeps_buildRoleLinks _ h.ready.stable)
  | setAdapter a => exact h.stable (h.ready.plain ..)
  | setWatcher w => exact h.stable (h.ready.plain ..)
  | autoSave b => exact h.stable (h.ready.plain ..)
  | autoNotify b => exact h.stable (h.ready.plain ..)

theorem Setup.deeds (ds : List Deed) : ∀ {E : Enforcer} {p : Assertion}, Setup lib E r p e exp →
    LoadableDeeds lib ds E → ∃ p', p'.tokens = p.tokens ∧ Setup lib (runDeeds lib ds E) r p' e exp := by
  induction ds with
  | nil => intro E p h _; exact ⟨p, rfl, h⟩
  | cons d ds ih =>
    intro E p h hf
    have hd : (d = .load → ∃ rules, LoadsRules E rules) ∧ LoadableDeeds lib ds (d.run lib E) := by
      cases d with
      | load => exact ⟨fun _ => hf.1, hf.2⟩
      | _ => exact ⟨fun h => (by cases h), by simpa only [LoadableDeeds] using hf⟩
    obtain ⟨p1, t1, h1⟩ := h.deed d hd.1
    obtain ⟨p2, t2, h2⟩ := ih h1 hd.2
    exact ⟨p2, t2.trans t1, h2⟩

theorem Linked.deeds (ds : List Deed) : ∀ {E : Enforcer} {p : Assertion}, Linked lib E r p e exp →
    FaithfulDeeds lib ds E → KeepsLinked lib E (runDeeds lib ds E) r p e exp := by
  have trans : ∀ {E1 E2 : Enforcer} {p1 : Assertion} (ds : List Deed), KeepsLinked lib E1 E2 r p1 e exp →
      (∀ {p : Assertion}, Linked lib E2 r p e exp → KeepsLinked lib E2 (runDeeds lib ds E2) r p e exp) →
      KeepsLinked lib E1 (runDeeds lib ds E2) r p1 e exp := by
    rintro E1 E2 p1 ds ⟨p2, t2, l2, v2, h2⟩ ih
    obtain ⟨p3, t3, l3, v3, h3⟩ := ih l2
    exact ⟨p3, t3.trans t2, l3, fun t => (v2 t).trans (v3 t), fun h => h3 (h2 h)⟩
  induction ds with
  | nil => intro E p h _; exact ⟨p, rfl, h, fun _ => rfl, id⟩
  | cons d ds ih =>
    intro E p h hf
    cases d with
    | act a =>
      obtain ⟨f1, f2⟩ := hf
      exact trans ds (h.acts [a] f1) (fun hl => ih hl f2)
    | load =>
      obtain ⟨⟨rules, hr, hg⟩, f2⟩ := hf
      exact trans ds (h.load hr hg).1 (fun hl => ih hl f2)
    | save =>
      exact trans (E2 := Deed.run lib .save E) ds h.save
        fun hl => ih hl (by simpa only [FaithfulDeeds] using hf)
    | rebuild =>
      exact trans (E2 := Deed.run lib .rebuild E) ds h.rebuild
        fun hl => ih hl (by simpa only [FaithfulDeeds] using hf)
    | setAdapter a =>
      exact trans (E2 := Deed.run lib (.setAdapter a) E) ds (h.plain ..)
        fun hl => ih hl (by simpa only [FaithfulDeeds] using hf)
    | setWatcher w =>
      exact trans (E2 := Deed.run lib (.setWatcher w) E) ds (h.plain ..)
        fun hl => ih hl (by simpa only [FaithfulDeeds] using hf)
    | autoSave b =>
      exact trans (E2 := Deed.run lib (.autoSave b) E) ds (h.plain ..)
        fun hl => ih hl (by simpa only [FaithfulDeeds] using hf)
    | autoNotify b =>
      exact trans (E2 := Deed.run lib (.autoNotify b) E) ds (h.plain ..)
        fun hl => ih hl (by simpa only [FaithfulDeeds] using hf)

/-! ## Loading a file -/

omit [IterOrder] in
theorem keys_clearSec (m : Model) (sec s : Str) :
    ((m.clearSec sec).secMap s).keys = (m.secMap s).keys := by
  unfold Model.clearSec
  cases hm : UMap.get m sec with
  | none =>
    unfold Model.secMap
    simp only [UMap.get_set]
    by_cases h : s = sec
    · subst h; simp [hm]
    · simp [Ne.symm h]
  | some am =>
    unfold Model.secMap
    simp only [UMap.get_set]
    by_cases h : s = sec
    · subst h; simp [hm, UMap.keys]
    · simp [Ne.symm h]

omit [IterOrder] in
theorem keys_addRule (m : Model) (x : Str × Rule) (s : Str) :
    ((addRule m x).secMap s).keys = (m.secMap s).keys := by
  unfold addRule
  cases hf : m.find (x.1.take 1) x.1 with
  | none => rfl
  | some a =>
    by_cases h : s = x.1.take 1
    · subst h; exact keys_put hf
    · unfold Model.put Model.secMap
      cases UMap.get m (x.1.take 1) <;> simp [UMap.get_set, Ne.symm h]

omit [IterOrder] in
theorem keys_loaded (rules : List (Str × Rule)) : ∀ (m : Model) (s : Str),
    ((rules.foldl addRule m).secMap s).keys = (m.secMap s).keys := by
  induction rules with
  | nil => intro m s; rfl
  | cons x rules ih => intro m s; rw [List.foldl_cons, ih, keys_addRule]

/-- Loading a file whose text says rules of types that the model defines. -/
theorem loadsRules_file {E : Enforcer} {ad : Adapter} {path text : Str} {w b : Bool}
    (ha : E.adapter = some ad) (hk : ad.kind = .file path (some text) w b) (hp : path ≠ [])
    {rules : List (Str × Rule)} (h : TextSays text rules) (hl : ShortLines text)
    (hn : (E.model.secMap c!"g").keys.Nodup)
    (hd : ∀ x ∈ rules, E.model.find (x.1.take 1) x.1 ≠ none)
    (ht : ∀ x ∈ rules, x.1.take 1 = c!"p" ∨ x.1.take 1 = c!"g") : LoadsRules E rules := by
  refine ⟨⟨ad, _, ha, ?_, extended_addRules _ _, ?_⟩, ht⟩
  · unfold Adapter.loadPolicy
    simp only [hk, if_neg hp]
    refine loadFile_run h hl fun x hx => ?_
    have h1 := hd x hx
    rw [Model.find_clearPolicy]
    cases hf : E.model.find (x.1.take 1) x.1 with
    | none => exact absurd hf h1
    | some a => split <;> simp
  · rw [keys_loaded]
    unfold Model.clearPolicy
    rw [keys_clearSec, keys_clearSec]
    exact hn

end Casbin
