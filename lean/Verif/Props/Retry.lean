import Verif.Props.Commute

/-!
# C175: making an editing call a second time changes nothing more; C176: an editing call can be undone
-/

set_option linter.unusedSectionVars false

namespace Casbin
namespace Retry

open Enforcer Fixtures EndToEnd StoreProps Locality Tenants PolicyProps Commute
open Model (FilterMatch)

variable [IterOrder] {lib : ExprLib} {E : Enforcer} {P G rs : List Rule} {e : Edit}

/-- No two rules have the same values (C29 says when that is so). -/
def Distinct (rs : List Rule) : Prop := rs.Pairwise fun r s => ¬ r.Perm s

/-- For a batch of updates: no new rule has the values of an old one. -/
def Moves : Edit → Prop
  | .updateMany _ os ns => ∀ o ∈ os, ∀ n ∈ ns, ¬ o.Perm n
  | _ => True

/-! ## Helpers -/

omit [IterOrder] in
theorem dropFirst_none_iff (o : Rule) : ∀ rs : List Rule, dropFirst o rs = none ↔ ∀ s ∈ rs, ¬ o.Perm s
  | [] => by simp [dropFirst]
  | s :: rs => by
    have ih := dropFirst_none_iff o rs
    rw [dropFirst]
    by_cases h : o.Perm s
    · simp [h]
    · simp only [h, if_false, Option.map_eq_none_iff, ih, List.mem_cons, forall_eq_or_imp, not_false_eq_true, true_and]

omit [IterOrder] in
/-- What is dropped is one rule. -/
theorem dropFirst_takes {o : Rule} : ∀ {rs rs' : List Rule}, dropFirst o rs = some rs' →
    ∃ s, o.Perm s ∧ rs.Perm (s :: rs') ∧ rs'.Sublist rs
  | [], _, h => by cases h
  | s :: rs, rs', h => by
    rw [dropFirst] at h
    by_cases hp : o.Perm s
    · rw [if_pos hp] at h
      cases h
      exact ⟨s, hp, .refl _, List.sublist_cons_self ..⟩
    · rw [if_neg hp] at h
      cases hd : dropFirst o rs with
      | none => rw [hd] at h; cases h
      | some l =>
        rw [hd] at h
        cases h
        obtain ⟨x, h1, h2, h3⟩ := dropFirst_takes hd
        exact ⟨x, h1, (h2.cons s).trans (.swap x s l), h3.cons_cons s⟩

omit [IterOrder] in
theorem distinct_perm {rs rs' : List Rule} (h : rs.Perm rs') (hd : Distinct rs) : Distinct rs' :=
  List.Pairwise.perm hd h fun h1 h2 => h1 h2.symm

omit [IterOrder] in
theorem distinct_same : ∀ {rs : List Rule} {r s : Rule}, Distinct rs → r ∈ rs → s ∈ rs → r.Perm s → r = s
  | [], _, _, _, h, _, _ => by cases h
  | x :: rs, r, s, hd, hr, hs, hp => by
    obtain ⟨h1, h2⟩ := List.pairwise_cons.mp hd
    rcases List.mem_cons.mp hr with e1 | k1 <;> rcases List.mem_cons.mp hs with e2 | k2
    · rw [e1, e2]
    · subst e1; exact absurd hp (h1 s k2)
    · subst e2; exact absurd hp.symm (h1 r k1)
    · exact distinct_same h2 k1 k2 hp

omit [IterOrder] in
/-- After the drop no rule has its values. -/
theorem dropFirst_gone {o : Rule} {rs rs' : List Rule} (hd : Distinct rs) (h : dropFirst o rs = some rs') :
    Distinct rs' ∧ ∀ s ∈ rs', ¬ o.Perm s := by
  obtain ⟨x, h1, h2, h3⟩ := dropFirst_takes h
  have := distinct_perm h2 hd
  refine ⟨(List.pairwise_cons.mp this).2, fun s hs hp => ?_⟩
  exact (List.pairwise_cons.mp this).1 s hs (h1.symm.trans hp)

omit [IterOrder] in
theorem appendNew_twice (ns rs : List Rule) : (appendNew ns (appendNew ns rs).2).2 = (appendNew ns rs).2 := by
  by_cases h : ∃ n ∈ ns, ∃ s ∈ rs, n.Perm s
  · have e : (appendNew ns rs).2 = rs := by unfold appendNew; rw [if_pos h]
    rw [e, e]
  · have e : (appendNew ns rs).2 = rs ++ ns := by unfold appendNew; rw [if_neg h]
    rw [e]
    cases ns with
    | nil => simp [appendNew]
    | cons n ns =>
      unfold appendNew
      rw [if_pos ⟨n, List.mem_cons_self, n, List.mem_append_right _ List.mem_cons_self, .refl _⟩]

omit [IterOrder] in
theorem dropEach_sub : ∀ (os : List Rule) {rs : List Rule}, (dropEach os rs).2.Sublist rs
  | [], rs => .refl _
  | o :: os, rs => by
    rw [dropEach]
    cases hd : dropFirst o rs with
    | none => exact .refl _
    | some l =>
      obtain ⟨x, h1, h2, h3⟩ := dropFirst_takes hd
      exact (dropEach_sub os).trans h3

omit [IterOrder] in
/-- A batch of drops finds its first rule missing the second time, unless it dropped nothing. -/
theorem dropEach_first {o : Rule} {os rs : List Rule} (hd : Distinct rs) :
    ∀ s ∈ (dropEach (o :: os) rs).2, ¬ o.Perm s := by
  rw [dropEach]
  cases h : dropFirst o rs with
  | none => exact (dropFirst_none_iff o rs).mp h
  | some l =>
    intro s hs
    exact (dropFirst_gone hd h).2 s ((dropEach_sub os).subset hs)

omit [IterOrder] in
theorem dropEach_missing {o : Rule} {os rs : List Rule} (h : ∀ s ∈ rs, ¬ o.Perm s) :
    dropEach (o :: os) rs = (false, rs) := by
  rw [dropEach, (dropFirst_none_iff o rs).mpr h]

omit [IterOrder] in
theorem appendNew_cases (ns rs : List Rule) :
    ((∃ n ∈ ns, ∃ s ∈ rs, n.Perm s) ∧ appendNew ns rs = (false, rs)) ∨
    ((¬ ∃ n ∈ ns, ∃ s ∈ rs, n.Perm s) ∧ appendNew ns rs = (true, rs ++ ns)) := by
  by_cases h : ∃ n ∈ ns, ∃ s ∈ rs, n.Perm s
  · exact .inl ⟨h, by unfold appendNew; rw [if_pos h]⟩
  · exact .inr ⟨h, by unfold appendNew; rw [if_neg h]⟩

omit [IterOrder] in
theorem dropFirst_last {o n : Rule} (h : o.Perm n) (ms : List Rule) : ∀ {rs : List Rule}, (∀ s ∈ rs, ¬ o.Perm s) →
    dropFirst o (rs ++ n :: ms) = some (rs ++ ms)
  | [], _ => by rw [List.nil_append, dropFirst, if_pos h]; rfl
  | s :: rs, hs => by
    rw [List.cons_append, dropFirst, if_neg (hs s List.mem_cons_self),
      dropFirst_last h ms fun s h => hs s (List.mem_cons_of_mem _ h)]
    rfl

omit [IterOrder] in
/-- The reference of C150 made twice. -/
theorem reference_twice (hd : Distinct rs) (hm : Moves e) :
    (reference e (reference e rs).2).2 = (reference e rs).2 := by
  cases e with
  | add g pt r => exact appendNew_twice _ _
  | addMany g pt ns => exact appendNew_twice _ _
  | removeMany g pt ns => exact appendNew_twice _ _
  | remove g pt r =>
    show (dropEach [r] (dropEach [r] rs).2).2 = (dropEach [r] rs).2
    rw [dropEach_missing (dropEach_first hd)]
  | removeFiltered g pt i vs =>
    by_cases hs : ∃ r ∈ rs, Short r i vs
    · have e : (reference (.removeFiltered g pt i vs) rs).2 = rs := by simp only [reference, if_pos hs]
      rw [e, e]
    · have hs' : ¬ ∃ r ∈ rs.filter fun r => ¬ FilterMatch r i vs, Short r i vs := by
        rintro ⟨r, hr, h⟩
        exact hs ⟨r, (List.mem_filter.mp hr).1, h⟩
      simp only [reference, if_neg hs, if_neg hs', List.filter_filter, Bool.and_self]
  | update g pt o n =>
    have h1 := dropEach_first (os := []) (o := o) hd
    have key : ∀ l, (∀ s ∈ l, ¬ o.Perm s) → (reference (.update g pt o n) l).2 = l := by
      intro l hl
      simp only [reference, dropEach_missing hl]
      rfl
    cases hf : dropFirst o rs with
    | none => 
      have e : (reference (.update g pt o n) rs).2 = rs := key rs ((dropFirst_none_iff o rs).mp hf)
      rw [e, e]
    | some l =>
      have hl := (dropFirst_gone hd hf).2
      have e : (reference (.update g pt o n) rs).2 = (appendNew [n] l).2 := by
        simp only [reference, dropEach, hf, if_true]
      rw [e]
      rcases appendNew_cases [n] l with ⟨_, h⟩ | ⟨hn, h⟩
      · rw [h]; exact key l hl
      · rw [h]
        by_cases hp : o.Perm n
        · simp only [reference, dropEach, dropFirst_last hp [] hl, if_true, List.append_nil, h]
        · refine key _ fun s hs => ?_
          rcases List.mem_append.mp hs with hs | hs
          · exact hl s hs
          · rw [List.mem_singleton.mp hs]; exact hp
  | updateMany pt os ns =>
    cases os with
    | nil =>
      show (appendNew ns (appendNew ns rs).2).2 = (appendNew ns rs).2
      exact appendNew_twice _ _
    | cons o os =>
      have h1 := dropEach_first (os := os) (o := o) hd
      have key : ∀ l, (∀ s ∈ l, ¬ o.Perm s) → (reference (.updateMany pt (o :: os) ns) l).2 = l := by
        intro l hl
        simp only [reference, dropEach_missing hl]
        rfl
      refine key _ ?_
      cases hb : (dropEach (o :: os) rs).1 with
      | false =>
        have e : (reference (.updateMany pt (o :: os) ns) rs).2 = (dropEach (o :: os) rs).2 := by
          simp only [reference, hb]; rfl
        rw [e]; exact h1
      | true =>
        have e : (reference (.updateMany pt (o :: os) ns) rs).2 = (appendNew ns (dropEach (o :: os) rs).2).2 := by
          simp only [reference, hb, if_true]
        rw [e]
        rcases appendNew_cases ns (dropEach (o :: os) rs).2 with ⟨_, h⟩ | ⟨hn, h⟩
        · rw [h]; exact h1
        · rw [h]
          intro s hs
          rcases List.mem_append.mp hs with hs | hs
          · exact h1 s hs
          · exact hm o List.mem_cons_self s hs

omit [IterOrder] in
theorem after_twice {t : Str × Str} (hd : Distinct rs) (hm : Moves e) :
    after e t (after e t rs) = after e t rs := by
  unfold after
  split
  · exact reference_twice hd hm
  · rfl

/-! ## C175 -/

/-- C175 for the rules, whatever the adapter and whether the calls return: made twice, the call leaves the
rules that it leaves made once, of every policy type. -/
theorem C175_rules_partial {t : Str × Str} (ht : Holds E t rs) (hd : Distinct rs) (hm : Moves e) :
    ∃ rs', Holds (e.run E).2 t rs' ∧ Holds (e.run (e.run E).2).2 t rs' := by
  refine ⟨_, holds_after ht e, ?_⟩
  have := holds_after (holds_after ht e) e
  rwa [after_twice hd hm] at this

open Classical in
/-- C175 for the decisions of the RBAC model. -/
theorem C175_decision_partial (hL : SoundLib lib) (h : InStep lib E P G) (hP : Distinct P) (hG : Distinct G)
    (hm : Moves e) (h2 : LinkProps.AllFaithful [e, e] E)
    (hlen : ∀ r ∈ after e (c!"p", c!"p") P, r.length = 3)
    (sub obj act : Str) (hne : obj ≠ [] ∨ act ≠ []) :
    ((e.run (e.run E).2).2.enforce lib [.str sub, .str obj, .str act]).1
      = ((e.run E).2.enforce lib [.str sub, .str obj, .str act]).1 := by
  have s1 := h.edit h2.1 h2.2.1
  have s2 := s1.edit h2.2.2.1 h2.2.2.2.1
  rw [after_twice hP hm, after_twice hG hm] at s2
  rw [s1.answer hL hlen sub obj act hne, s2.answer hL hlen sub obj act hne]

open Classical in
/-- C175 for the decisions of the model with domains. -/
theorem C175_domains_partial (hL : SoundLib lib) (h : InStepD lib E P G) (hP : Distinct P) (hG : Distinct G)
    (hm : Moves e) (h2 : LinkProps.AllFaithful [e, e] E)
    (hlen : ∀ r ∈ after e (c!"p", c!"p") P, r.length = 4) (hD : PlainDomains (after e (c!"g", c!"g") G))
    (sub d obj act : Str) (hd : ':' ∉ d) (hne : d ≠ []) :
    ((e.run (e.run E).2).2.enforce lib [.str sub, .str d, .str obj, .str act]).1
      = ((e.run E).2.enforce lib [.str sub, .str d, .str obj, .str act]).1 := by
  have s1 := h.edit h2.1 h2.2.1
  have s2 := s1.edit h2.2.2.1 h2.2.2.2.1
  rw [after_twice hP hm, after_twice hG hm] at s2
  rw [s1.answer hL hlen hD sub d obj act hd hne, s2.answer hL hlen hD sub d obj act hd hne]

omit [IterOrder] in
/-- C175 is false for a batch of updates that keeps a rule: the second call takes this rule away, finds the
next one missing and stops. -/
theorem C175_update_fails : ¬ ∀ (_ : IterOrder) (E : Enforcer) (rs : List Rule) (e : Edit),
    Holds E (c!"p", c!"p") rs → Distinct rs →
    ∃ rs', Holds (e.run E).2 (c!"p", c!"p") rs' ∧ Holds (e.run (e.run E).2).2 (c!"p", c!"p") rs' := by
  intro h
  let := insertionOrder
  have h0 : Holds (acl [alice, bob]) (c!"p", c!"p") [alice, bob] := ⟨_, rfl, rfl⟩
  obtain ⟨rs', h1, h2⟩ := h insertionOrder (acl [alice, bob]) [alice, bob]
    (.updateMany c!"p" [alice, bob] [alice, [c!"bob", c!"data2", c!"read"]]) h0 (by unfold Distinct; decide)
  have x1 := holds_unique h1 (holds_after h0 _)
  have x2 := holds_unique h2 (holds_after (holds_after h0 _) _)
  exact absurd (x1.symm.trans x2) (by decide)

omit [IterOrder] in
/-- It is false for a removal when two rules have the same values: each call takes one away. -/
theorem C175_remove_fails : ¬ ∀ (_ : IterOrder) (E : Enforcer) (rs : List Rule) (r : Rule),
    Holds E (c!"p", c!"p") rs →
    ∃ rs', Holds ((Edit.remove false c!"p" r).run E).2 (c!"p", c!"p") rs' ∧
      Holds ((Edit.remove false c!"p" r).run ((Edit.remove false c!"p" r).run E).2).2 (c!"p", c!"p") rs' := by
  intro h
  let := insertionOrder
  have h0 : Holds (acl [alice, alice]) (c!"p", c!"p") [alice, alice] := ⟨_, rfl, rfl⟩
  obtain ⟨rs', h1, h2⟩ := h insertionOrder (acl [alice, alice]) [alice, alice] alice h0
  have x1 := holds_unique h1 (holds_after h0 _)
  have x2 := holds_unique h2 (holds_after (holds_after h0 _) _)
  exact absurd (x1.symm.trans x2) (by decide)

/-- An update made twice. -/
example {E : Enforcer} (h : Holds E (c!"p", c!"p") [alice, bob]) :
    let e : Edit := .update false c!"p" bob [c!"bob", c!"data2", c!"read"]
    ∃ rs', Holds (e.run E).2 (c!"p", c!"p") rs' ∧ Holds (e.run (e.run E).2).2 (c!"p", c!"p") rs' :=
  C175_rules_partial h (by unfold Distinct; decide) trivial

/-- Bob, who has the role Alice, after taking Alice's rule away twice. -/
example (sub : Str) :
    letI := insertionOrder
    let E := (buildRoleLinks (rbac [alice] [[c!"bob", c!"alice"]])).2
    let e : Edit := .remove false c!"p" alice
    ((e.run (e.run E).2).2.enforce miniLib [.str sub, .str c!"data1", .str c!"read"]).1
      = ((e.run E).2.enforce miniLib [.str sub, .str c!"data1", .str c!"read"]).1 := by
  let := insertionOrder
  exact C175_decision_partial miniLib_sound (inStep_new miniLib [alice] (by decide)) (e := .remove false c!"p" alice)
    (by unfold Distinct; decide) (by unfold Distinct; decide) trivial
    ⟨trivial, by decide +kernel, trivial, by decide +kernel, trivial⟩ (by decide) sub _ _ (.inl (by decide))

/-! ## C176 -/

/-- The call that takes a call back. -/
def inverse : Edit → Option Edit
  | .add g pt r => some (.remove g pt r)
  | .addMany g pt rs => some (.removeMany g pt rs)
  | .remove g pt r => some (.add g pt r)
  | .update g pt o n => some (.update g pt n o)
  | .updateMany pt os ns => some (.updateMany pt ns os)
  | .removeMany .. | .removeFiltered .. => none

/-- The rules to take out are there, with their values in this order, and the call is not a batch of rules to
add. -/
def Undoable (rs : List Rule) : Edit → Prop
  | .add .. => True
  | .remove _ _ r => r ∈ rs
  | .update _ _ o _ => o ∈ rs
  | .updateMany _ os _ => ∀ o ∈ os, o ∈ rs
  | _ => False

omit [IterOrder] in
/-- The rule that is taken out is the rule itself. -/
theorem dropFirst_itself {o : Rule} {rs l : List Rule} (hd : Distinct rs) (ho : o ∈ rs)
    (h : dropFirst o rs = some l) : rs.Perm (o :: l) := by
  obtain ⟨x, h1, h2, h3⟩ := dropFirst_takes h
  rcases List.mem_cons.mp (h2.mem_iff.mp ho) with rfl | hm
  · exact h2
  · exact absurd (.refl o) ((dropFirst_gone hd h).2 o hm)

omit [IterOrder] in
theorem dropEach_itself : ∀ {os rs : List Rule}, Distinct rs → (∀ o ∈ os, o ∈ rs) → (dropEach os rs).1 = true →
    rs.Perm ((dropEach os rs).2 ++ os) ∧ ∀ o ∈ os, ∀ s ∈ (dropEach os rs).2, ¬ o.Perm s
  | [], rs, _, _, _ => ⟨by simp [dropEach], fun _ h => by cases h⟩
  | o :: os, rs, hd, ho, h => by
    rw [dropEach] at h ⊢
    cases hf : dropFirst o rs with
    | none => rw [hf] at h; cases h
    | some l =>
      rw [hf] at h
      dsimp only at h ⊢
      obtain ⟨hl1, hl2⟩ := dropFirst_gone hd hf
      have hp := dropFirst_itself hd (ho o List.mem_cons_self) hf
      have hrest : ∀ x ∈ os, x ∈ l := by
        intro x hx
        rcases List.mem_cons.mp (hp.mem_iff.mp (ho x (List.mem_cons_of_mem _ hx))) with rfl | hm
        · -- the same rule twice in the batch: the second is missing
          exfalso
          have : ∀ (os l : List Rule), Distinct l → x ∈ os → (∀ s ∈ l, ¬ x.Perm s) → (dropEach os l).1 = false := by
            intro os
            induction os with
            | nil => intro l _ h; cases h
            | cons y ys ih =>
              intro l hdl hy hn
              rw [dropEach]
              cases hy' : dropFirst y l with
              | none => rfl
              | some l' =>
                rcases List.mem_cons.mp hy with rfl | hy
                · rw [(dropFirst_none_iff _ _).mpr hn] at hy'; cases hy'
                · obtain ⟨_, _, _, hsub⟩ := dropFirst_takes hy'
                  exact ih l' (dropFirst_gone hdl hy').1 hy fun s hs => hn s (hsub.subset hs)
          rw [this os l hl1 hx hl2] at h
          cases h
        · exact hm
      obtain ⟨h1, h2⟩ := dropEach_itself hl1 hrest h
      refine ⟨hp.trans ((h1.cons o).trans List.perm_middle.symm), ?_⟩
      intro x hx s hs
      rcases List.mem_cons.mp hx with rfl | hx
      · exact hl2 s ((dropEach_sub os).subset hs)
      · exact h2 x hx s hs

omit [IterOrder] in
/-- What has just been put at the end can be taken out again. -/
theorem dropEach_last : ∀ {ns l : List Rule}, (¬ ∃ n ∈ ns, ∃ s ∈ l, n.Perm s) → dropEach ns (l ++ ns) = (true, l)
  | [], l, _ => by rw [List.append_nil]; rfl
  | n :: ns, l, h => by
    rw [dropEach, dropFirst_last (.refl n) ns fun s hs hp => h ⟨n, List.mem_cons_self, s, hs, hp⟩]
    exact dropEach_last fun ⟨m, hm, s, hs, hp⟩ => h ⟨m, List.mem_cons_of_mem _ hm, s, hs, hp⟩

omit [IterOrder] in
theorem update_back {os ns rs : List Rule} (hd : Distinct rs) (ho : ∀ o ∈ os, o ∈ rs)
    (h : (dropEach os rs).1 = true) (ha : (appendNew ns (dropEach os rs).2).1 = true) :
    let l := (appendNew ns (dropEach os rs).2).2
    (dropEach ns l).1 = true ∧ (appendNew os (dropEach ns l).2).1 = true ∧
      (appendNew os (dropEach ns l).2).2.Perm rs := by
  obtain ⟨h1, h2⟩ := dropEach_itself hd ho h
  rcases appendNew_cases ns (dropEach os rs).2 with ⟨_, e⟩ | ⟨hn, e⟩
  · rw [e] at ha; cases ha
  · rw [e]
    dsimp only
    rw [dropEach_last hn]
    dsimp only
    rcases appendNew_cases os (dropEach os rs).2 with ⟨⟨o, ho, s, hs, hp⟩, _⟩ | ⟨_, e'⟩
    · exact absurd hp (h2 o ho s hs)
    · rw [e']
      exact ⟨rfl, rfl, h1.symm⟩

omit [IterOrder] in
/-- The reference of C150: a call that did its work and its inverse. -/
theorem reference_back {i : Edit} (hi : inverse e = some i) (hd : Distinct rs) (hu : Undoable rs e)
    (ht : (reference e rs).1 = .ok true) :
    (reference i (reference e rs).2).1 = .ok true ∧ (reference i (reference e rs).2).2.Perm rs := by
  cases e with
  | add g pt r =>
    cases hi
    rcases appendNew_cases [r] rs with ⟨_, e⟩ | ⟨hn, e⟩
    · simp only [reference, e] at ht; cases ht
    · simp only [reference, e, dropEach_last hn]
      exact ⟨trivial, .refl _⟩
  | addMany g pt ns => exact hu.elim
  | removeMany g pt ns => exact hu.elim
  | removeFiltered g pt i vs => exact hu.elim
  | remove g pt r =>
    cases hi
    have hb : (dropEach [r] rs).1 = true := Outcome.ok.inj ht
    obtain ⟨h1, h2⟩ := dropEach_itself (os := [r]) hd (fun o ho => List.mem_singleton.mp ho ▸ hu) hb
    simp only [reference]
    rcases appendNew_cases [r] (dropEach [r] rs).2 with ⟨⟨o, ho, s, hs, hp⟩, _⟩ | ⟨_, e'⟩
    · exact absurd hp (h2 o ho s hs)
    · rw [e']
      exact ⟨rfl, h1.symm⟩
  | update g pt o n =>
    cases hi
    simp only [reference] at ht ⊢
    split at ht
    · next hb =>
      have := update_back (os := [o]) (ns := [n]) hd (fun x hx => List.mem_singleton.mp hx ▸ hu) hb
        (Outcome.ok.inj ht)
      simp only [hb, if_true, this.1, this.2.1]
      exact ⟨trivial, this.2.2⟩
    · cases ht
  | updateMany pt os ns =>
    cases hi
    simp only [reference] at ht ⊢
    split at ht
    · next hb =>
      have := update_back (os := os) (ns := ns) hd hu hb (Outcome.ok.inj ht)
      simp only [hb, if_true, this.1, this.2.1]
      exact ⟨trivial, this.2.2⟩
    · cases ht

omit [IterOrder] in
theorem inverse_target {i : Edit} (hi : inverse e = some i) : i.target = e.target := by
  cases e <;> cases hi <;> rfl

theorem after_back {i : Edit} (hi : inverse e = some i) {t : Str × Str} (hr : Holds E t rs)
    (hd : e.target = t → Distinct rs ∧ Undoable rs e) (ok : (e.run E).1 = .ok true) :
    (after i t (after e t rs)).Perm rs := by
  unfold after
  rw [inverse_target hi]
  split
  · next ht =>
    subst ht
    exact (reference_back hi (hd rfl).1 (hd rfl).2 ((C150_call e hr).2 true ok)).2
  · exact .refl _

/-- C176 for the rules, whatever the adapter: after a call that returned true and its inverse, the rules of
every policy type are those of before, up to their order. -/
theorem C176_rules_partial {i : Edit} (hi : inverse e = some i) {t : Str × Str} (ht : Holds E t rs)
    (hd : e.target = t → Distinct rs ∧ Undoable rs e) (ok : (e.run E).1 = .ok true) :
    ∃ rs', Holds (i.run (e.run E).2).2 t rs' ∧ rs'.Perm rs :=
  ⟨_, holds_after (holds_after ht e) i, after_back hi ht hd ok⟩

/-- C176: if the inverse returns, it returns true. -/
theorem C176_answer_partial {i : Edit} (hi : inverse e = some i) (ht : Holds E e.target rs) (hd : Distinct rs)
    (hu : Undoable rs e) (ok : (e.run E).1 = .ok true) {b : Bool} (hb : (i.run (e.run E).2).1 = .ok b) :
    b = true := by
  have h1 := C150_call e ht
  have h2 := C150_call i (by rw [inverse_target hi]; exact h1.1)
  have := h2.2 b hb
  rw [(reference_back hi hd hu (h1.2 true ok)).1] at this
  exact (Outcome.ok.inj this).symm

open Classical in
/-- C176 for the decisions of the RBAC model. -/
theorem C176_decision_partial (hL : SoundLib lib) (h : InStep lib E P G) {i : Edit} (hi : inverse e = some i)
    (hp : e.target = (c!"p", c!"p") → Distinct P ∧ Undoable P e)
    (hg : e.target = (c!"g", c!"g") → Distinct G ∧ Undoable G e)
    (ok : (e.run E).1 = .ok true) (hf : LinkProps.AllFaithful [e, i] E) (hlen : ∀ r ∈ P, r.length = 3)
    (sub obj act : Str) (hne : obj ≠ [] ∨ act ≠ []) :
    ((i.run (e.run E).2).2.enforce lib [.str sub, .str obj, .str act]).1
      = (E.enforce lib [.str sub, .str obj, .str act]).1 := by
  have s2 := (h.edit hf.1 hf.2.1).edit hf.2.2.1 hf.2.2.2.1
  have qp := after_back hi h.holds.1 hp ok
  have qg := after_back hi h.holds.2 hg ok
  rw [s2.answer hL (fun r hr => hlen r (qp.mem_iff.mp hr)) sub obj act hne, h.answer hL hlen sub obj act hne]
  have hgr : Grants (after i (c!"g", c!"g") (after e (c!"g", c!"g") G)) = Grants G := by
    funext x y
    unfold Grants
    simp only [qg.mem_iff]
  rw [hgr]
  simp only [qp.mem_iff]

open Classical in
/-- C176 for the decisions of the model with domains. -/
theorem C176_domains_partial (hL : SoundLib lib) (h : InStepD lib E P G) {i : Edit} (hi : inverse e = some i)
    (hp : e.target = (c!"p", c!"p") → Distinct P ∧ Undoable P e)
    (hg : e.target = (c!"g", c!"g") → Distinct G ∧ Undoable G e)
    (ok : (e.run E).1 = .ok true) (hf : LinkProps.AllFaithful [e, i] E) (hlen : ∀ r ∈ P, r.length = 4)
    (hD : PlainDomains G) (sub d obj act : Str) (hd : ':' ∉ d) (hne : d ≠ []) :
    ((i.run (e.run E).2).2.enforce lib [.str sub, .str d, .str obj, .str act]).1
      = (E.enforce lib [.str sub, .str d, .str obj, .str act]).1 := by
  have s2 := (h.edit hf.1 hf.2.1).edit hf.2.2.1 hf.2.2.2.1
  have qp := after_back hi h.holds.1 hp ok
  have qg := after_back hi h.holds.2 hg ok
  have hD' : PlainDomains (after i (c!"g", c!"g") (after e (c!"g", c!"g") G)) := by
    unfold PlainDomains at hD ⊢
    simpa only [qg.mem_iff] using hD
  rw [s2.answer hL (fun r hr => hlen r (qp.mem_iff.mp hr)) hD' sub d obj act hd hne,
    h.answer hL hlen hD sub d obj act hd hne]
  have hgr : GrantsIn (after i (c!"g", c!"g") (after e (c!"g", c!"g") G)) d = GrantsIn G d := by
    funext x y
    unfold GrantsIn
    simp only [qg.mem_iff]
  rw [hgr]
  simp only [qp.mem_iff]

/-- C176 for a removal by a filter: adding the rules that the filter fits, as they were listed before, brings
them back. -/
theorem C176_filter_partial {g : Bool} {pt : Str} {i : Nat} {vs : List Str} {t : Str × Str} (ht : Holds E t rs)
    (htt : (Edit.removeFiltered g pt i vs).target = t) (hd : Distinct rs) (he : Enough (.removeFiltered g pt i vs) rs) :
    ∃ rs', Holds ((Edit.addMany g pt (rs.filter fun r => FilterMatch r i vs)).run
      ((Edit.removeFiltered g pt i vs).run E).2).2 t rs' ∧ rs'.Perm rs := by
  refine ⟨_, holds_after (holds_after ht _) _, ?_⟩
  have hs : ¬ ∃ r ∈ rs, Short r i vs := fun ⟨r, hr, h⟩ => he r hr h
  have ht2 : (Edit.addMany g pt (rs.filter fun r => FilterMatch r i vs)).target = t := htt
  unfold after
  rw [if_pos ht2, if_pos htt]
  simp only [reference, if_neg hs]
  rcases appendNew_cases (rs.filter fun r => FilterMatch r i vs) (rs.filter fun r => ¬ FilterMatch r i vs) with
    ⟨⟨n, hn, s, hs, hp⟩, _⟩ | ⟨_, e⟩
  · have h1 := List.mem_filter.mp hn
    have h2 := List.mem_filter.mp hs
    have : n = s := distinct_same hd h1.1 h2.1 hp
    subst this
    have := h2.2
    simp only [decide_not, Bool.not_eq_true', decide_eq_false_iff_not] at this
    exact absurd (of_decide_eq_true h1.2) this
  · rw [e]
    refine List.perm_append_comm.trans ?_
    simpa using List.filter_append_perm (fun r => decide (FilterMatch r i vs)) rs

/-- C176 for a batch of additions, taken back one by one. -/
theorem C176_batch_partial {g : Bool} {pt : Str} {ns : List Rule} {t : Str × Str} (ht : Holds E t rs)
    (htt : (Edit.addMany g pt ns).target = t) (ok : ((Edit.addMany g pt ns).run E).1 = .ok true) :
    Holds (runEdits ((Edit.addMany g pt ns).run E).2 (ns.map fun n => .remove g pt n)) t rs := by
  subst htt
  have h1 := C150_call _ ht
  have ok' := h1.2 true ok
  have h2 := C150_history (ns.map fun n => Edit.remove g pt n) _ h1.1
  simp only [reference] at ok' h2
  rcases appendNew_cases ns rs with ⟨_, e⟩ | ⟨hn, e⟩
  · rw [e] at ok'; cases ok'
  · rw [e] at h2
    have key : ∀ (ms l : List Rule), (¬ ∃ n ∈ ms, ∃ s ∈ l, n.Perm s) →
        referenceAll (Edit.addMany g pt ns).target (ms.map fun n => Edit.remove g pt n) (l ++ ms) = l := by
      intro ms
      induction ms with
      | nil => intro l _; simp [referenceAll]
      | cons m ms ih =>
        intro l hl
        have e1 : (reference (.remove g pt m) (l ++ m :: ms)).2 = l ++ ms := by
          simp only [reference, dropEach,
            dropFirst_last (.refl m) ms fun s hs hp => hl ⟨m, List.mem_cons_self, s, hs, hp⟩]
        have e2 : (Edit.remove g pt m).target = (Edit.addMany g pt ns).target := rfl
        rw [List.map_cons, referenceAll]
        simp only [e2, if_true, e1]
        exact ih l fun ⟨n, hn, s, hs, hp⟩ => hl ⟨n, List.mem_cons_of_mem _ hn, s, hs, hp⟩
    rw [key ns rs hn] at h2
    exact h2

omit [IterOrder] in
/-- A batch of additions is not taken back by the batch of removals, which adds (C31). -/
theorem C176_batch_fails : ¬ ∀ (_ : IterOrder) (E : Enforcer) (rs ns : List Rule),
    Holds E (c!"p", c!"p") rs → Distinct rs → ((Edit.addMany false c!"p" ns).run E).1 = .ok true →
    ∃ rs', Holds ((Edit.removeMany false c!"p" ns).run ((Edit.addMany false c!"p" ns).run E).2).2
      (c!"p", c!"p") rs' ∧ rs'.Perm rs := by
  intro h
  let := insertionOrder
  have h0 : Holds { acl [] with autoSave := false } (c!"p", c!"p") [] := ⟨_, rfl, rfl⟩
  obtain ⟨rs', h1, h2⟩ := h insertionOrder { acl [] with autoSave := false } [] [alice, bob] h0
    (by unfold Distinct; decide) (by decide +kernel)
  have x1 := holds_unique h1 (holds_after (holds_after h0 _) _)
  subst x1
  exact absurd h2 (by decide)

omit [IterOrder] in
/-- Taking out a rule that is there with its values in another order is not taken back by adding it. -/
theorem C176_rearranged_fails : ¬ ∀ (_ : IterOrder) (E : Enforcer) (rs : List Rule) (r : Rule),
    Holds E (c!"p", c!"p") rs → Distinct rs → ((Edit.remove false c!"p" r).run E).1 = .ok true →
    ∃ rs', Holds ((Edit.add false c!"p" r).run ((Edit.remove false c!"p" r).run E).2).2 (c!"p", c!"p") rs' ∧
      rs'.Perm rs := by
  intro h
  let := insertionOrder
  have h0 : Holds (acl [alice]) (c!"p", c!"p") [alice] := ⟨_, rfl, rfl⟩
  obtain ⟨rs', h1, h2⟩ := h insertionOrder (acl [alice]) [alice] [c!"data1", c!"alice", c!"read"] h0
    (by unfold Distinct; decide) (by decide +kernel)
  have x1 := holds_unique h1 (holds_after (holds_after h0 _) _)
  subst x1
  exact absurd h2 (by decide)

/-- The rules for one subject are taken out by a filter and put back; two rules are added and taken out. -/
example {E : Enforcer} (h : Holds E (c!"p", c!"p") [alice, bob]) :
    ∃ rs', Holds ((Edit.addMany false c!"p" ([alice, bob].filter fun r => FilterMatch r 0 [c!"alice"])).run
      ((Edit.removeFiltered false c!"p" 0 [c!"alice"]).run E).2).2 (c!"p", c!"p") rs' ∧ rs'.Perm [alice, bob] :=
  C176_filter_partial h rfl (by unfold Distinct; decide) (by unfold Enough; decide)

example : letI := insertionOrder
    let E := { acl [] with autoSave := false }
    Holds (runEdits ((Edit.addMany false c!"p" [alice, bob]).run E).2 [.remove false c!"p" alice, .remove false c!"p" bob])
      (c!"p", c!"p") [] := by
  let := insertionOrder
  exact C176_batch_partial (E := { acl [] with autoSave := false }) (g := false) (pt := c!"p") (ns := [alice, bob])
    ⟨_, rfl, rfl⟩ rfl (by decide +kernel)

/-- Two rules changed at once and changed back. -/
example :
    letI := insertionOrder
    let ns : List Rule := [[c!"alice", c!"data1", c!"write"], [c!"bob", c!"data2", c!"read"]]
    let E := { acl [alice, bob] with autoSave := false }
    ∃ rs', Holds ((Edit.updateMany c!"p" ns [alice, bob]).run ((Edit.updateMany c!"p" [alice, bob] ns).run E).2).2
      (c!"p", c!"p") rs' ∧ rs'.Perm [alice, bob] := by
  let := insertionOrder
  obtain ⟨rs', h1, h2⟩ := C176_rules_partial (E := { acl [alice, bob] with autoSave := false })
    (e := .updateMany c!"p" [alice, bob] [[c!"alice", c!"data1", c!"write"], [c!"bob", c!"data2", c!"read"]])
    (t := (c!"p", c!"p")) (rs := [alice, bob]) rfl ⟨_, rfl, rfl⟩
    (fun _ => ⟨by unfold Distinct; decide, by show ∀ o ∈ [alice, bob], o ∈ [alice, bob]; exact fun _ h => h⟩)
    (by decide +kernel)
  exact ⟨rs', h1, h2⟩

/-- Where the rule was there, giving it back answers true if it returns. -/
example {E : Enforcer} (h : Holds E (c!"p", c!"p") [alice, bob])
    (ok : ((Edit.remove false c!"p" alice).run E).1 = .ok true) {b : Bool}
    (hb : ((Edit.add false c!"p" alice).run ((Edit.remove false c!"p" alice).run E).2).1 = .ok b) : b = true :=
  C176_answer_partial (e := .remove false c!"p" alice) rfl h (by unfold Distinct; decide)
    (by show alice ∈ _; decide) ok hb

/-- Taking Alice's rule away from the RBAC model and giving it back. -/
example (sub : Str) :
    letI := insertionOrder
    let E := (buildRoleLinks (rbac [alice, bob] [[c!"bob", c!"alice"]])).2
    (((Edit.add false c!"p" alice).run ((Edit.remove false c!"p" alice).run E).2).2.enforce miniLib
        [.str sub, .str c!"data1", .str c!"read"]).1
      = (E.enforce miniLib [.str sub, .str c!"data1", .str c!"read"]).1 := by
  let := insertionOrder
  exact C176_decision_partial miniLib_sound (inStep_new miniLib [alice, bob] (by decide))
    (e := .remove false c!"p" alice) rfl (fun _ => ⟨by unfold Distinct; decide, by show alice ∈ _; decide⟩)
    (fun h => absurd h (by decide)) (by decide +kernel)
    ⟨trivial, by decide +kernel, trivial, by decide +kernel, trivial⟩ (by decide) sub _ _ (.inl (by decide))

/-- Taking a rule of one domain away twice; and taking it away and giving it back. -/
example (sub : Str) :
    letI := insertionOrder
    let r : Rule := [c!"admin", c!"d1", c!"data1", c!"read"]
    let E := (buildRoleLinks (enforcer (domModel [r] [[c!"alice", c!"admin", c!"d1"]]))).2
    let e : Edit := .remove false c!"p" r
    ((e.run (e.run E).2).2.enforce miniLib [.str sub, .str c!"d1", .str c!"data1", .str c!"read"]).1
      = ((e.run E).2.enforce miniLib [.str sub, .str c!"d1", .str c!"data1", .str c!"read"]).1 ∧
    (((Edit.add false c!"p" r).run (e.run E).2).2.enforce miniLib
        [.str sub, .str c!"d1", .str c!"data1", .str c!"read"]).1
      = (E.enforce miniLib [.str sub, .str c!"d1", .str c!"data1", .str c!"read"]).1 := by
  let := insertionOrder
  have hD : PlainDomains [[c!"alice", c!"admin", c!"d1"]] := by
    intro x y d rest hm
    simp only [List.mem_cons, List.cons.injEq, List.not_mem_nil, or_false] at hm
    obtain ⟨_, _, rfl, _⟩ := hm
    decide
  have h := inStepD_new miniLib [[c!"admin", c!"d1", c!"data1", c!"read"]]
    (G := [[c!"alice", c!"admin", c!"d1"]]) (by decide)
  exact ⟨C175_domains_partial miniLib_sound h (e := .remove false c!"p" [c!"admin", c!"d1", c!"data1", c!"read"])
      (by unfold Distinct; decide) (by unfold Distinct; decide) trivial
      ⟨trivial, by decide +kernel, trivial, by decide +kernel, trivial⟩ (by decide) hD sub _ _ _ (by decide) (by decide),
    C176_domains_partial miniLib_sound h (e := .remove false c!"p" [c!"admin", c!"d1", c!"data1", c!"read"]) rfl
      (fun _ => ⟨by unfold Distinct; decide, by show _ ∈ _; decide⟩) (fun h => absurd h (by decide)) (by decide +kernel)
      ⟨trivial, by decide +kernel, trivial, by decide +kernel, trivial⟩ (by decide) hD sub _ _ _ (by decide) (by decide)⟩

end Retry
end Casbin
