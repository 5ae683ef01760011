import Mathlib.Data.List.Perm.Basic
import Verif.Props.Tenants

/-!
# C173: names are only told apart

Give users, roles, objects and actions other names, different names to different ones. The same history of
edits with the new names gets the same answers, leaves the same rules with the new names, and every request
with the new names is decided as before. `Renaming` says which ways of naming this is about.
-/

set_option linter.unusedSectionVars false

namespace Casbin
namespace Renaming

open Enforcer Fixtures EndToEnd StoreProps Locality Tenants PolicyProps
open Model (FilterMatch)

variable [IterOrder] {lib : ExprLib} {E E' : Enforcer} {P G : List Rule} {ρ : Str → Str}

/-- Different names for different names; the empty text, which means "any" in a filter, keeps its name. -/
structure Renames (ρ : Str → Str) : Prop where
  inj : Function.Injective ρ
  nil : ρ [] = []

/-- The rules with the new names. -/
def ren (ρ : Str → Str) (rs : List Rule) : List Rule := rs.map (List.map ρ)

/-- The call with the new names. -/
def renEdit (ρ : Str → Str) : Edit → Edit
  | .add g pt r => .add g pt (r.map ρ)
  | .addMany g pt rs => .addMany g pt (ren ρ rs)
  | .remove g pt r => .remove g pt (r.map ρ)
  | .removeMany g pt rs => .removeMany g pt (ren ρ rs)
  | .removeFiltered g pt i vs => .removeFiltered g pt i (vs.map ρ)
  | .update g pt o n => .update g pt (o.map ρ) (n.map ρ)
  | .updateMany pt os ns => .updateMany pt (ren ρ os) (ren ρ ns)

/-! ## Helpers -/

omit [IterOrder] in
theorem Renames.ne (h : Renames ρ) {x : Str} : ρ x = [] ↔ x = [] :=
  ⟨fun e => h.inj (e.trans h.nil.symm), fun e => e ▸ h.nil⟩

omit [IterOrder] in
theorem target_ren (ρ : Str → Str) (e : Edit) : (renEdit ρ e).target = e.target := by cases e <;> rfl

omit [IterOrder] in
theorem dropFirst_ren (h : Renames ρ) (o : Rule) : ∀ rs : List Rule,
    dropFirst (o.map ρ) (ren ρ rs) = (dropFirst o rs).map (ren ρ)
  | [] => rfl
  | s :: rs => by
    have ih := dropFirst_ren h o rs
    show (if (o.map ρ).Perm (s.map ρ) then some (ren ρ rs)
      else (dropFirst (o.map ρ) (ren ρ rs)).map (s.map ρ :: ·)) = _
    rw [dropFirst, ih]
    by_cases hp : o.Perm s
    · rw [if_pos hp, if_pos ((List.map_perm_map_iff h.inj).mpr hp)]; rfl
    · rw [if_neg hp, if_neg fun hq => hp ((List.map_perm_map_iff h.inj).mp hq)]
      cases dropFirst o rs <;> rfl

omit [IterOrder] in
theorem dropEach_ren (h : Renames ρ) : ∀ os rs : List Rule,
    dropEach (ren ρ os) (ren ρ rs) = ((dropEach os rs).1, ren ρ (dropEach os rs).2)
  | [], _ => rfl
  | o :: os, rs => by
    show (match dropFirst (o.map ρ) (ren ρ rs) with
      | none => (false, ren ρ rs)
      | some rs' => dropEach (ren ρ os) rs') = _
    rw [dropFirst_ren h, dropEach]
    cases dropFirst o rs with
    | none => rfl
    | some rs' => exact dropEach_ren h os rs'

omit [IterOrder] in
theorem appendNew_ren (h : Renames ρ) (ns rs : List Rule) :
    appendNew (ren ρ ns) (ren ρ rs) = ((appendNew ns rs).1, ren ρ (appendNew ns rs).2) := by
  have e : (∃ n ∈ ren ρ ns, ∃ s ∈ ren ρ rs, n.Perm s) ↔ ∃ n ∈ ns, ∃ s ∈ rs, n.Perm s := by
    simp [ren, List.map_perm_map_iff h.inj]
  unfold appendNew
  by_cases hx : ∃ n ∈ ns, ∃ s ∈ rs, n.Perm s
  · rw [if_pos hx, if_pos (e.mpr hx)]
  · rw [if_neg hx, if_neg fun h => hx (e.mp h)]
    simp [ren]

omit [IterOrder] in
theorem at_ren (h : Renames ρ) (r : Rule) (i : Nat) (v : Str) : (r.map ρ)[i]? = some (ρ v) ↔ r[i]? = some v := by
  rw [List.getElem?_map]
  cases r[i]? with
  | none => simp
  | some w => simp [h.inj.eq_iff]

omit [IterOrder] in
theorem filterMatch_ren (h : Renames ρ) (r : Rule) (i : Nat) (vs : List Str) :
    FilterMatch (r.map ρ) i (vs.map ρ) ↔ FilterMatch r i vs := by
  constructor
  · intro hm j v hj hv
    have := hm j (ρ v) (by rw [List.getElem?_map, hj]; rfl) (fun e => hv (h.ne.mp e))
    exact (at_ren h _ _ _).mp this
  · intro hm j v hj hv
    rw [List.getElem?_map] at hj
    cases hx : vs[j]? with
    | none => rw [hx] at hj; cases hj
    | some w =>
      rw [hx] at hj
      cases hj
      exact (at_ren h _ _ _).mpr (hm j w hx fun e => hv (h.ne.mpr e))

omit [IterOrder] in
theorem short_ren (h : Renames ρ) (r : Rule) (vs : List Str) : ∀ i,
    Short (r.map ρ) i (vs.map ρ) ↔ Short r i vs := by
  induction vs with
  | nil => intro i; constructor <;> rintro ⟨⟨j, hj⟩, _⟩ <;> simp at hj
  | cons v vs ih =>
    intro i
    rw [List.map_cons, short_cons, short_cons, ih, at_ren h, List.length_map, Ne, h.ne]

omit [IterOrder] in
/-- The reference of C150 does not look into the names. -/
theorem reference_ren (h : Renames ρ) (e : Edit) (rs : List Rule) :
    reference (renEdit ρ e) (ren ρ rs) = ((reference e rs).1, ren ρ (reference e rs).2) := by
  have one : ∀ r : Rule, [r.map ρ] = ren ρ [r] := fun _ => rfl
  cases e with
  | add g pt r => simp only [renEdit, reference, one, appendNew_ren h]
  | addMany g pt ns => simp only [renEdit, reference, appendNew_ren h]
  | remove g pt r => simp only [renEdit, reference, one, dropEach_ren h]
  | removeMany g pt ns => simp only [renEdit, reference, appendNew_ren h]
  | removeFiltered g pt i vs =>
    have e1 : (∃ r ∈ ren ρ rs, Short r i (vs.map ρ)) ↔ ∃ r ∈ rs, Short r i vs := by simp [ren, short_ren h]
    have e2 : (∃ r ∈ ren ρ rs, FilterMatch r i (vs.map ρ)) ↔ ∃ r ∈ rs, FilterMatch r i vs := by
      simp [ren, filterMatch_ren h]
    simp only [renEdit, reference, e1, e2]
    split
    · rfl
    · simp only [ren, List.filter_map, Prod.mk.injEq, true_and]
      congr 1
      refine List.filter_congr fun r _ => ?_
      simp [filterMatch_ren h]
  | update g pt o n =>
    simp only [renEdit, reference, one, dropEach_ren h, appendNew_ren h]
    split <;> rfl
  | updateMany pt os ns =>
    simp only [renEdit, reference, dropEach_ren h, appendNew_ren h]
    split <;> rfl

omit [IterOrder] in
theorem after_ren (h : Renames ρ) (e : Edit) (t : Str × Str) (rs : List Rule) :
    after (renEdit ρ e) t (ren ρ rs) = ren ρ (after e t rs) := by
  unfold after
  rw [target_ren, reference_ren h]
  split <;> rfl

omit [IterOrder] in
theorem referenceAll_ren (h : Renames ρ) (t : Str × Str) : ∀ (es : List Edit) (rs : List Rule),
    referenceAll t (es.map (renEdit ρ)) (ren ρ rs) = ren ρ (referenceAll t es rs)
  | [], _ => rfl
  | e :: es, rs => by
    show referenceAll t (es.map (renEdit ρ)) (after (renEdit ρ e) t (ren ρ rs)) = _
    rw [after_ren h, referenceAll_ren h t es]
    rfl

/-! ## C173 -/

/-- C173 for the stored rules: after any history the rules are the same up to the names, with any adapter,
model and links on either side. -/
theorem C173_rules (h : Renames ρ) {t : Str × Str} {rs : List Rule} (h1 : Holds E t rs)
    (h2 : Holds E' t (ren ρ rs)) (es : List Edit) :
    ∃ rs', Holds (runEdits E es) t rs' ∧ Holds (runEdits E' (es.map (renEdit ρ))) t (ren ρ rs') :=
  ⟨_, C150_history es t h1, referenceAll_ren h t es rs ▸ C150_history _ t h2⟩

/-- C173 for the answers of the editing calls: those that return answer alike. -/
theorem C173_answer (h : Renames ρ) {e : Edit} {rs : List Rule} (h1 : Holds E e.target rs)
    (h2 : Holds E' e.target (ren ρ rs)) {b b' : Bool} (hb : (e.run E).1 = .ok b)
    (hb' : ((renEdit ρ e).run E').1 = .ok b') : b = b' := by
  have r1 := (C150_call e h1).2 b hb
  have r2 := (C150_call (renEdit ρ e) (rs := ren ρ rs) (by rw [target_ren]; exact h2)).2 b' hb'
  rw [reference_ren h] at r2
  exact Outcome.ok.inj (r1.symm.trans r2)

omit [IterOrder] in
theorem path_ren (h : Renames ρ) {R R' : Str → Str → Prop} (hR : ∀ x y', R' (ρ x) y' ↔ ∃ y, y' = ρ y ∧ R x y)
    {n : Nat} {a b : Str} : RM.Path R' n (ρ a) (ρ b) ↔ RM.Path R n a b := by
  constructor
  · intro hp
    generalize ha : ρ a = a' at hp
    generalize hb : ρ b = b' at hp
    induction hp generalizing a with
    | nil c =>
      obtain rfl : a = b := h.inj (ha.trans hb.symm)
      exact .nil a
    | cons hab _ ih =>
      subst ha
      obtain ⟨y, rfl, hy⟩ := (hR _ _).mp hab
      exact .cons hy (ih rfl hb)
  · intro hp
    induction hp with
    | nil c => exact .nil _
    | cons hab _ ih => exact .cons ((hR _ _).mpr ⟨_, rfl, hab⟩) ih

omit [IterOrder] in
theorem mem_ren (h : Renames ρ) {r : Rule} {rs : List Rule} : r.map ρ ∈ ren ρ rs ↔ r ∈ rs := by
  unfold ren
  constructor
  · intro hm
    obtain ⟨s, hs, e⟩ := List.mem_map.mp hm
    exact (h.inj.list_map e) ▸ hs
  · exact fun hm => List.mem_map_of_mem hm

omit [IterOrder] in
theorem grants_ren (h : Renames ρ) (x y' : Str) :
    Grants (ren ρ G) (ρ x) y' ↔ ∃ y, y' = ρ y ∧ Grants G x y := by
  constructor
  · rintro ⟨rest, hr⟩
    obtain ⟨s, hs, e⟩ := List.mem_map.mp hr
    obtain ⟨a, s, rfl, e1, e⟩ := List.map_eq_cons_iff.mp e
    obtain ⟨b, c, rfl, e2, _⟩ := List.map_eq_cons_iff.mp e
    exact ⟨b, e2.symm, c, h.inj e1 ▸ hs⟩
  · rintro ⟨y, rfl, rest, hr⟩
    exact ⟨rest.map ρ, (mem_ren h (r := x :: y :: rest)).mpr hr⟩

omit [IterOrder] in
theorem length_ren {k : Nat} (hlen : ∀ r ∈ P, r.length = k) : ∀ r ∈ ren ρ P, r.length = k := by
  intro r hr
  obtain ⟨s, hs, rfl⟩ := List.mem_map.mp hr
  rw [List.length_map]
  exact hlen s hs

/-- C173 for the decisions of the RBAC model: two enforcers whose rules are the same up to the names decide
alike, up to the names. -/
theorem C173_decision (hL : SoundLib lib) (h : Renames ρ) (h1 : InStep lib E P G)
    (h2 : InStep lib E' (ren ρ P) (ren ρ G)) (hlen : ∀ r ∈ P, r.length = 3) (sub obj act : Str)
    (hne : obj ≠ [] ∨ act ≠ []) :
    (E'.enforce lib [.str (ρ sub), .str (ρ obj), .str (ρ act)]).1
      = (E.enforce lib [.str sub, .str obj, .str act]).1 := by
  rw [h1.answer hL hlen sub obj act hne,
    h2.answer hL (length_ren hlen) _ _ _ (hne.imp (fun x e => x (h.ne.mp e)) fun x e => x (h.ne.mp e))]
  congr 1
  rw [decide_eq_decide]
  constructor
  · rintro ⟨s', hs, n, hn, hp⟩
    obtain ⟨r, hr, e⟩ := List.mem_map.mp hs
    obtain ⟨s, r1, rfl, rfl, e1⟩ := List.map_eq_cons_iff.mp e
    rw [h.inj.list_map (a₂ := [obj, act]) e1] at hr
    exact ⟨s, hr, n, hn, (path_ren h (grants_ren h)).mp hp⟩
  · rintro ⟨s, hs, n, hn, hp⟩
    exact ⟨ρ s, (mem_ren h (r := [s, obj, act])).mpr hs, n, hn, (path_ren h (grants_ren h)).mpr hp⟩

/-- All calls return. -/
def Return : List Edit → Enforcer → Prop
  | [], _ => True
  | e :: es, E => (e.run E).1.IsOk ∧ Return es (e.run E).2

/-- Calls that keep links and rules together (C23) do so with the new names. -/
theorem faithful_ren (h : Renames ρ) (h1 : InStep lib E P G) (h2 : InStep lib E' (ren ρ P) (ren ρ G))
    {e : Edit} (hf : LinkProps.Faithful E e) : LinkProps.Faithful E' (renEdit ρ e) := by
  obtain ⟨ga, hg, hc, hG⟩ := h1.groups
  obtain ⟨gb, hg', hc', hG'⟩ := h2.groups
  have key : ∀ {pt : Str} {a : Assertion}, E'.model.find c!"g" pt = some a → pt = c!"g" ∧ a = gb := by
    intro pt a ha
    by_cases hp : pt = c!"g"
    · subst hp
      exact ⟨rfl, Option.some.inj (ha.symm.trans hg')⟩
    · rw [h2.only pt hp] at ha; cases ha
  have items : ga.policy.items = G := by rw [hG]; rfl
  have items' : gb.policy.items = ren ρ G := by rw [hG']; rfl
  cases e with
  | add g pt r =>
    cases g with
    | false => trivial
    | true =>
      intro a ha
      obtain ⟨rfl, rfl⟩ := key ha
      obtain ⟨f1, f2⟩ := hf ga hg
      rw [hc] at f1
      rw [hc', List.length_map]
      refine ⟨f1, ?_⟩
      rintro ⟨s, hs, hp⟩
      rw [items'] at hs ⊢
      obtain ⟨s1, hs1, rfl⟩ := List.mem_map.mp hs
      rw [items] at f2
      exact (mem_ren h).mpr (f2 ⟨s1, (by rw [items]; exact hs1), (List.map_perm_map_iff h.inj).mp hp⟩)
  | addMany g pt rs =>
    cases g with
    | false => trivial
    | true =>
      intro a ha r hr
      obtain ⟨rfl, rfl⟩ := key ha
      obtain ⟨r1, hr1, rfl⟩ := List.mem_map.mp hr
      have := hf ga hg r1 hr1
      rw [hc] at this
      rwa [hc', List.length_map]
  | removeMany g pt rs =>
    cases g with
    | false => trivial
    | true =>
      intro a ha r hr
      obtain ⟨rfl, rfl⟩ := key ha
      obtain ⟨r1, hr1, rfl⟩ := List.mem_map.mp hr
      have := hf ga hg r1 hr1
      rw [hc] at this
      rwa [hc', List.length_map]
  | remove g pt r => cases g <;> trivial
  | removeFiltered g pt i vs => cases g <;> trivial
  | updateMany pt os ns => trivial
  | update g pt o n =>
    cases g with
    | false => trivial
    | true =>
      intro a ha
      obtain ⟨rfl, rfl⟩ := key ha
      obtain ⟨f1, f2, f3, f4, f5⟩ := hf ga hg
      rw [hc] at f1 f2 f5
      rw [items] at f3 f4 f5
      rw [hc', items', List.length_map, List.length_map]
      refine ⟨f1, f2, ?_, ?_, ?_⟩
      · intro s hs hp
        obtain ⟨s1, hs1, rfl⟩ := List.mem_map.mp hs
        rw [f3 s1 hs1 (hp.imp (List.map_perm_map_iff h.inj).mp (List.map_perm_map_iff h.inj).mp)]
      · unfold ren
        rw [List.count_map_of_injective _ _ h.inj.list_map]
        exact f4
      · intro x y hl
        refine ⟨?_, ?_⟩
        · rintro t ht ⟨a, ha, _⟩
          exact ht (key ha).1
        · intro s hs hl'
          obtain ⟨s1, hs1, rfl⟩ := List.mem_map.mp hs
          rcases hl with ⟨_, a1, b1, r1, e1, rfl, rfl⟩ | ⟨h3, _⟩
          · rcases hl' with ⟨_, a2, b2, r2, e2, e3, e4⟩ | ⟨h3, _⟩
            · obtain ⟨x1, o1, rfl, k1, e5⟩ := List.map_eq_cons_iff.mp e1
              obtain ⟨y1, o2, rfl, k2, _⟩ := List.map_eq_cons_iff.mp e5
              obtain ⟨x2, s2, rfl, k3, e6⟩ := List.map_eq_cons_iff.mp e2
              obtain ⟨y2, s3, rfl, k4, _⟩ := List.map_eq_cons_iff.mp e6
              rw [(f5 x1 y1 (.inl ⟨rfl, _, _, _, rfl, rfl, rfl⟩)).2 _ hs1
                (.inl ⟨rfl, _, _, _, rfl, h.inj (k1.trans (e3.trans k3.symm)),
                  h.inj (k2.trans (e4.trans k4.symm))⟩)]
            · cases h3
          · cases h3

theorem inStep_ren (h : Renames ρ) : ∀ (es : List Edit) {E E' : Enforcer} {P G : List Rule},
    InStep lib E P G → InStep lib E' (ren ρ P) (ren ρ G) → LinkProps.AllFaithful es E →
    Return (es.map (renEdit ρ)) E' →
    InStep lib (runEdits E es) (referenceAll (c!"p", c!"p") es P) (referenceAll (c!"g", c!"g") es G) ∧
    InStep lib (runEdits E' (es.map (renEdit ρ))) (ren ρ (referenceAll (c!"p", c!"p") es P))
      (ren ρ (referenceAll (c!"g", c!"g") es G))
  | [], _, _, _, _, h1, h2, _, _ => ⟨h1, h2⟩
  | e :: es, _, _, _, _, h1, h2, hk, hr => by
    have s2 := h2.edit (faithful_ren h h1 h2 hk.1) hr.1
    rw [after_ren h, after_ren h] at s2
    exact inStep_ren h es (h1.edit hk.1 hk.2.1) s2 hk.2.2 hr.2

/-- C173 for the RBAC model: after any history, and the same history with the new names, every request is
decided alike. -/
theorem C173_history (hL : SoundLib lib) (h : Renames ρ) (h1 : InStep lib E P G)
    (h2 : InStep lib E' (ren ρ P) (ren ρ G)) {es : List Edit} (hk : LinkProps.AllFaithful es E)
    (hr : Return (es.map (renEdit ρ)) E') (hlen : ∀ r ∈ referenceAll (c!"p", c!"p") es P, r.length = 3)
    (sub obj act : Str) (hne : obj ≠ [] ∨ act ≠ []) :
    ((runEdits E' (es.map (renEdit ρ))).enforce lib [.str (ρ sub), .str (ρ obj), .str (ρ act)]).1
      = ((runEdits E es).enforce lib [.str sub, .str obj, .str act]).1 :=
  have s := inStep_ren h es h1 h2 hk hr
  C173_decision hL h s.1 s.2 hlen sub obj act hne

/-! ## Domains -/

omit [IterOrder] in
theorem grantsIn_ren (h : Renames ρ) (d x y' : Str) :
    GrantsIn (ren ρ G) (ρ d) (ρ x) y' ↔ ∃ y, y' = ρ y ∧ GrantsIn G d x y := by
  constructor
  · rintro ⟨rest, hr⟩
    obtain ⟨s, hs, e⟩ := List.mem_map.mp hr
    obtain ⟨a, s, rfl, e1, e⟩ := List.map_eq_cons_iff.mp e
    obtain ⟨b, s, rfl, e2, e⟩ := List.map_eq_cons_iff.mp e
    obtain ⟨c, s, rfl, e3, _⟩ := List.map_eq_cons_iff.mp e
    exact ⟨b, e2.symm, s, h.inj e1 ▸ h.inj e3 ▸ hs⟩
  · rintro ⟨y, rfl, rest, hr⟩
    exact ⟨rest.map ρ, (mem_ren h (r := x :: y :: d :: rest)).mpr hr⟩

/-- C173 for the decisions of the RBAC model with domains, when neither the old nor the new names of domains
have a colon. -/
theorem C173_domains_partial (hL : SoundLib lib) (h : Renames ρ) (h1 : InStepD lib E P G)
    (h2 : InStepD lib E' (ren ρ P) (ren ρ G)) (hlen : ∀ r ∈ P, r.length = 4) (hD : PlainDomains G)
    (hD' : PlainDomains (ren ρ G)) (sub d obj act : Str) (hd : ':' ∉ d) (hd' : ':' ∉ ρ d) (hne : d ≠ []) :
    (E'.enforce lib [.str (ρ sub), .str (ρ d), .str (ρ obj), .str (ρ act)]).1
      = (E.enforce lib [.str sub, .str d, .str obj, .str act]).1 := by
  rw [h1.answer hL hlen hD sub d obj act hd hne,
    h2.answer hL (length_ren hlen) hD' _ _ _ _ hd' (fun e => hne (h.ne.mp e))]
  congr 1
  rw [decide_eq_decide]
  constructor
  · rintro ⟨s', hs, n, hn, hp⟩
    obtain ⟨r, hr, e⟩ := List.mem_map.mp hs
    obtain ⟨s, r1, rfl, rfl, e1⟩ := List.map_eq_cons_iff.mp e
    rw [h.inj.list_map (a₂ := [d, obj, act]) e1] at hr
    exact ⟨s, hr, n, hn, (path_ren h (grantsIn_ren h d)).mp hp⟩
  · rintro ⟨s, hs, n, hn, hp⟩
    exact ⟨ρ s, (mem_ren h (r := [s, d, obj, act])).mpr hs, n, hn, (path_ren h (grantsIn_ren h d)).mpr hp⟩

/-! ## Witnesses and examples -/

/-- Exchange two names. -/
def swap (a b : Str) (x : Str) : Str := if x = a then b else if x = b then a else x

omit [IterOrder] in
theorem swap_swap (a b x : Str) : swap a b (swap a b x) = x := by
  unfold swap
  by_cases h1 : x = a
  · subst h1
    by_cases h2 : b = x <;> simp [h2]
  · by_cases h2 : x = b
    · subst h2; simp [h1]
    · simp [h1, h2]

omit [IterOrder] in
theorem renames_swap {a b : Str} (ha : a ≠ []) (hb : b ≠ []) : Renames (swap a b) :=
  ⟨fun x y e => by rw [← swap_swap a b x, e, swap_swap], by simp [swap, ha.symm, hb.symm]⟩

omit [IterOrder] in
/-- With domains the names do matter: a role in the domain `a` counts in the domain `a::b` for names that
begin with `b::`, so that exchanging two names of users changes an answer. -/
theorem C173_domains_fails : ¬ ∀ (_ : IterOrder) (lib : ExprLib) (ρ : Str → Str) (P G : List Rule)
    (sub d obj act : Str), SoundLib lib → Renames ρ → (∀ r ∈ P, r.length = 4) → (∀ r ∈ G, r.length = 3) →
    ((buildRoleLinks (enforcer (domModel (ren ρ P) (ren ρ G)))).2.enforce lib
        [.str (ρ sub), .str (ρ d), .str (ρ obj), .str (ρ act)]).1 =
      ((buildRoleLinks (enforcer (domModel P G))).2.enforce lib [.str sub, .str d, .str obj, .str act]).1 := by
  intro h
  have := @h insertionOrder miniLib (swap c!"b::alice" c!"carol") [[c!"admin", c!"a::b", c!"data1", c!"read"]]
    [[c!"b::alice", c!"b::admin", c!"a"]] c!"alice" c!"a::b" c!"data1" c!"read" miniLib_sound
    (renames_swap (by decide) (by decide)) (by decide) (by decide)
  exact absurd this (by decide +kernel)

omit [IterOrder] in
/-- The empty name is not like the others: in a filter it stands for any name. -/
theorem C173_empty_fails : ¬ ∀ (_ : IterOrder) (ρ : Str → Str) (E E' : Enforcer) (t : Str × Str) (rs : List Rule)
    (e : Edit), Function.Injective ρ → Holds E t rs → Holds E' t (ren ρ rs) →
    ∃ rs', Holds (e.run E).2 t rs' ∧ Holds ((renEdit ρ e).run E').2 t (ren ρ rs') := by
  intro h
  obtain ⟨rs', ⟨a, ha, hp⟩, b, hb, hq⟩ := @h insertionOrder (swap [] c!"alice") (acl [alice, bob])
    (acl (ren (swap [] c!"alice") [alice, bob])) (c!"p", c!"p") [alice, bob]
    (.removeFiltered false c!"p" 0 [c!"alice"])
    (fun x y e => by rw [← swap_swap [] c!"alice" x, e, swap_swap]) ⟨_, rfl, rfl⟩ ⟨_, rfl, rfl⟩
  cases ha
  cases hb
  cases hp
  cases hq

theorem inStep_before : InStep miniLib (buildRoleLinks (rbac [alice] [[c!"bob", c!"alice"]])).2 [alice]
    [[c!"bob", c!"alice"]] := inStep_new miniLib [alice] (by decide)

theorem inStep_renamed : InStep miniLib (buildRoleLinks (rbac (ren (swap c!"bob" c!"eve") [alice])
    (ren (swap c!"bob" c!"eve") [[c!"bob", c!"alice"]]))).2 (ren (swap c!"bob" c!"eve") [alice])
    (ren (swap c!"bob" c!"eve") [[c!"bob", c!"alice"]]) := inStep_new miniLib _ (by decide)

/-- Eve in the place of Bob, after a new role has been given. -/
example (sub : Str) :
    letI := insertionOrder
    let es : List Edit := [.add true c!"g" [c!"carol", c!"bob"], .add false c!"p" bob]
    let ρ := swap c!"bob" c!"eve"
    ((runEdits (buildRoleLinks (rbac (ren ρ [alice]) (ren ρ [[c!"bob", c!"alice"]]))).2
        (es.map (renEdit ρ))).enforce miniLib [.str (ρ sub), .str (ρ c!"data1"), .str (ρ c!"read")]).1
      = ((runEdits (buildRoleLinks (rbac [alice] [[c!"bob", c!"alice"]])).2 es).enforce miniLib
        [.str sub, .str c!"data1", .str c!"read"]).1 := by
  let := insertionOrder
  refine C173_history miniLib_sound (renames_swap (by decide) (by decide)) inStep_before inStep_renamed
    (es := [.add true c!"g" [c!"carol", c!"bob"], .add false c!"p" bob]) ?_ ?_ ?_ sub _ _ (.inl (by decide))
  · refine ⟨?_, by decide +kernel, trivial, by decide +kernel, trivial⟩
    intro a ha
    cases ha
    decide
  · exact ⟨by decide +kernel, by decide +kernel, trivial⟩
  · decide

end Renaming
end Casbin
