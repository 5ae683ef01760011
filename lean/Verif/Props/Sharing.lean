import Verif.Sharing
import Verif.Props.History

/-!
# C136: instances that share a policy file and a watcher
-/

namespace Casbin
namespace SharingProps

open Enforcer DecisionProps Fixtures EndToEnd AdapterProps HistoryProps Sharing

/-! ## Specification -/

/-- The models have the same policy and role definitions; the rules stored for them may differ. -/
def SameDefs (m m' : Model) : Prop :=
  ∀ s t, s = c!"p" ∨ s = c!"g" → (m'.find s t = none ↔ m.find s t = none) ∧
    ∀ a a', m.find s t = some a → m'.find s t = some a' →
      a'.tokens = a.tokens ∧ a'.value = a.value ∧ a'.policy.hash = a.policy.hash

/-- The enforcer has a file adapter for the given path. -/
def UsesFile (E : Enforcer) (path : Str) (writable : Bool) : Prop :=
  ∃ d b log, E.adapter = some ⟨.file path d writable b, log⟩

variable [IterOrder] {lib : ExprLib}

/-! ## Nothing reaches the other instances -/

/-- Nothing that other instances do reaches an instance. -/
theorem call_others {i j : Nat} (hij : i ≠ j) (c : Method) {S : Sharing} (hk : S.kept = []) :
    (call lib i c S).insts[j]? = S.insts[j]? ∧ (call lib i c S).kept = [] := by
  have hset : ∀ E' : Enforcer, (S.insts.set i E')[j]? = S.insts[j]? := fun E' => by
    rw [List.getElem?_set_ne hij]
  have hupd : ∀ S' : Sharing, S'.kept = [] → (update i S').insts[j]? = S'.insts[j]? := by
    intro S' h
    simp [update, h]
  unfold call
  cases hE : S.insts[i]? with
  | none => exact ⟨rfl, hk⟩
  | some E =>
    simp only
    split
    · exact ⟨hset _, hk⟩
    · split
      · exact ⟨hset _, hk⟩
      · refine ⟨(hupd _ ?_).trans (hset _), hk⟩
        exact hk

/-- C136, the other way round: whatever the other instances do, changes, saves and `SetWatcher`
included, an instance is what it was. -/
theorem C136_deaf (cs : List (Nat × Method)) {S : Sharing} (hk : S.kept = []) {j : Nat}
    (hj : ∀ x ∈ cs, x.1 ≠ j) : (calls lib cs S).insts[j]? = S.insts[j]? := by
  induction cs generalizing S with
  | nil => rfl
  | cons x cs ih =>
    obtain ⟨h1, h2⟩ := call_others (lib := lib) (hj x (by simp)) x.2 hk
    exact (ih h2 fun y hy => hj y (by simp [hy])).trans h1

omit [IterOrder] in
/-- Two instances on one file without rules. -/
def pair : Sharing :=
  let E : Enforcer := { rbac [] [] with adapter := some ⟨.file c!"policy.csv" (some []) true false, []⟩ }
  { path := c!"policy.csv", disk := some [], insts := [E, E], kept := [] }

/-- Both get a watcher, then the first one adds a rule and saves it. -/
def pairCalls : List (Nat × Method) :=
  [(0, .setWatcher ⟨false, []⟩), (1, .setWatcher ⟨false, []⟩), (0, .enableAutoSave false),
    (0, .edit (.add false c!"p" alice)), (0, .savePolicy)]

omit [IterOrder] in
/-- C136 is false: the rule is in the file and the watcher has been told, but the second instance does not
grant what the first one grants. -/
theorem C136_fails : ∃ (S : Sharing) (cs : List (Nat × Method)) (vals : List Str),
    S.insts[0]? = S.insts[1]? ∧ S.kept = [] ∧ (let _ := insertionOrder
    (calls miniLib cs S).disk = some c!"p, alice, data1, read" ∧
    ((calls miniLib cs S).insts[0]?.map Sharing.updates) = some [.update, .update] ∧
    answer miniLib 0 vals (calls miniLib cs S) = some (.ok true) ∧
    answer miniLib 1 vals (calls miniLib cs S) = some (.ok false)) := by
  refine ⟨pair, pairCalls, alice, rfl, rfl, ?_⟩
  decide +kernel

/-! ## An instance that loads the policy itself -/

omit [IterOrder] in
theorem seeing_file {E : Enforcer} {path : Str} {w : Bool} (h : UsesFile E path w) (disk : Option Str) :
    ∃ b log, seeing path disk E = { E with adapter := some ⟨.file path disk w b, log⟩ } := by
  obtain ⟨d, b, log, ha⟩ := h
  exact ⟨b, log, by simp [seeing, ha]⟩

/-- A model with the same definitions into which the rules of a storable model have been loaded. -/
theorem sameStore_loaded {m m' m'' m3 : Model} (hS : Storable m) (hd : SameDefs m m')
    (hE : Extended m'.clearPolicy m'' (allRules m)) (hr : m''.SameRules m3) : SameStore m m3 := by
  have key : ∀ s t, s = c!"p" ∨ s = c!"g" → (m3.find s t = none ↔ m.find s t = none) ∧
      ∀ a a3, m.find s t = some a → m3.find s t = some a3 →
        a3.tokens = a.tokens ∧ a3.value = a.value ∧ a3.policy.hash = a.policy.hash ∧
        (a.policy.hash = false → a3.policy.items = a.policy.items) ∧
        ∀ r, r ∈ a3.policy.items ↔ r ∈ a.policy.items := by
    intro s t hs
    obtain ⟨d1, d2⟩ := hd s t hs
    obtain ⟨h1, h2⟩ := hE s t
    rw [Model.find_clearPolicy, if_pos hs] at h1 h2
    cases hf' : m'.find s t with
    | none =>
      have hn := hr.none (h1 (by rw [hf']; rfl))
      refine ⟨by simp [hn, d1.mp hf'], fun a a3 _ h3 => ?_⟩
      rw [hn] at h3; cases h3
    | some a' =>
      rw [hf'] at h2
      obtain ⟨P, p1, p2, p3, p4, _⟩ := h2 _ rfl
      obtain ⟨x, hx⟩ := hr.some p1
      have hne : m.find s t ≠ none := fun h => by rw [d1.mpr h] at hf'; cases hf'
      refine ⟨by simp [hx, hne], fun a a3 ha h3 => ?_⟩
      rw [hx] at h3
      cases h3
      obtain ⟨t1, t2, t3⟩ := d2 a a' ha hf'
      have hsec := (hS.types s t a hs ha).2
      rw [rulesOf_allRules hS hs ha] at p3 p4
      simp only [Policies.clear, List.nil_append, List.not_mem_nil, false_or] at p2 p3 p4
      refine ⟨t1, t2, p2.trans t3, fun hv => ?_, fun r => ?_⟩
      · refine (p3 (p2.trans (t3.trans hv))).trans ?_
        rw [if_pos hsec.symm]
        simp [Policies.iterate, hv]
      · refine (p4 r).trans ?_
        simp [hsec, Policies.mem_iterate]
  refine ⟨?_, fun t => (key c!"g" t (Or.inr rfl)).1, ?_⟩
  · intro p p3 hp hp3
    obtain ⟨k1, _, k3, k4, k5⟩ := (key c!"p" c!"p" (Or.inl rfl)).2 p p3 hp hp3
    exact ⟨k1, k3, k4, k5⟩
  · intro t a a3 ha ha3
    obtain ⟨_, k2, _, _, k5⟩ := (key c!"g" t (Or.inr rfl)).2 a a3 ha ha3
    exact ⟨k2, k5⟩

/-- What is left of C136: when an instance has saved its policy to the file, another instance with the same
definitions that calls `LoadPolicy` itself answers every request as the first one does. Missing: that it
learns of the change (`C136_deaf`, `C136_fails`). -/
theorem C136_load_partial {S : Sharing} {i j : Nat} (hij : i ≠ j) (hk : S.kept = []) (hp : S.path ≠ [])
    {E E' : Enforcer} (hE : S.insts[i]? = some E) (hE' : S.insts[j]? = some E')
    {r p p' e : Assertion} {exp : Str} (hL : Linked lib E r p e exp) (hL' : Linked lib E' r p' e exp)
    (hd : SameDefs E.model E'.model) (ha : UsesFile E S.path true) {w : Bool} (ha' : UsesFile E' S.path w)
    (hS : Storable E.model) (hl : ∀ t, policyText E.model = .ok t → ShortLines t) (vals : List Str) :
    ∃ o, answer lib i vals (calls lib [(i, .savePolicy), (j, .loadPolicy)] S) = some o ∧
      answer lib j vals (calls lib [(i, .savePolicy), (j, .loadPolicy)] S) = some o := by
  -- the save
  obtain ⟨b, log, hs⟩ := seeing_file ha S.disk
  set E0 := seeing S.path S.disk E with hE0
  have ht := policyText_ok (storable_ensured hS)
  have hl' := hl _ (policyText_ok hS)
  rw [allRules_ensured] at ht
  set text := between '\n' ((allRules E.model).map lineOf) with htext
  have hm0 : E0.model = E.model := by rw [hs]
  have ha0 : E0.adapter = some ⟨.file S.path S.disk true b, log⟩ := by rw [hs]
  have hsv : Adapter.savePolicy ((E0.model.ensureSec c!"p").ensureSec c!"g")
      ⟨.file S.path S.disk true b, log⟩ = (.ok (), ⟨.file S.path (some text) true b, log ++ [.save]⟩) := by
    simp only [Adapter.savePolicy, if_neg hp, hm0, ht, if_true]
  have hsave := savePolicy_ok ha0 rfl hsv
  set E1 := (savePolicy E0).2 with hE1
  have hE1m : E1.model = (E.model.ensureSec c!"p").ensureSec c!"g" := by rw [hE1, hsave, hm0]
  have hE1a : E1.adapter = some ⟨.file S.path (some text) true b, log ++ [.save]⟩ := by rw [hE1, hsave]
  have hrun : ((Method.savePolicy).run lib E0).2 = E1 := by
    show ((savePolicy >>= fun _ => pure Answer.done) E0).2 = E1
    rw [M.bind_run, hE1]
    rcases savePolicy E0 with ⟨o, x⟩
    cases o <;> rfl
  set S1 := call lib i .savePolicy S with hS1
  have hS1i : S1.insts[i]? = some E1 ∧ S1.disk = some text ∧ S1.path = S.path := by
    have hlt : i < S.insts.length := by
      by_contra h; rw [List.getElem?_eq_none (by omega)] at hE; cases hE
    rw [hS1]
    unfold call
    simp only [hE, ← hE0, hrun]
    have hw : written S.path S.disk E1 = some text := by simp [written, hE1a]
    split
    · exact ⟨by simp [hlt], hw, rfl⟩
    · refine ⟨?_, hw, rfl⟩
      simp [update, hlt]
  obtain ⟨h1i, h1d, h1p⟩ := hS1i
  obtain ⟨h1j, h1k⟩ := call_others (lib := lib) hij .savePolicy hk
  rw [← hS1, hE'] at h1j
  rw [← hS1] at h1k
  have hl0 : ∃ p0, Linked lib E0 r p0 e exp := by
    obtain ⟨p0, _, h, _⟩ := hL.plain (some ⟨.file S.path S.disk true b, log⟩) E.watcher E.autoSave E.autoNotify
    exact ⟨p0, by rw [hs]; exact h⟩
  obtain ⟨p0, hl0⟩ := hl0
  obtain ⟨p1, _, hL1, _⟩ := hl0.save
  rw [← hE1] at hL1
  -- the load
  obtain ⟨b', log', hs'⟩ := seeing_file ha' (some text)
  set F0 := seeing S.path (some text) E' with hF0
  have hmF : F0.model = E'.model := by rw [hs']
  have haF : F0.adapter = some ⟨.file S.path (some text) w b', log'⟩ := by rw [hs']
  have hlF : ∃ q0, Linked lib F0 r q0 e exp := by
    obtain ⟨q0, _, h, _⟩ := hL'.plain (some ⟨.file S.path (some text) w b', log'⟩) E'.watcher E'.autoSave E'.autoNotify
    exact ⟨q0, by rw [hs']; exact h⟩
  obtain ⟨q0, hlF⟩ := hlF
  have hsec : ∀ x ∈ allRules E.model, x.1.take 1 = c!"p" ∨ x.1.take 1 = c!"g" := by
    intro x hx
    obtain ⟨sec, a, hsec, hf, _⟩ := mem_allRules hS hx
    rw [(hS.types sec x.1 a hsec hf).2]; exact hsec
  have hdef : ∀ x ∈ allRules E.model, F0.model.find (x.1.take 1) x.1 ≠ none := by
    intro x hx
    rw [hmF]
    exact fun h => (allRules_line hS hx).2.2.2.2 ((hd _ _ (hsec x hx)).1.mp h)
  have hloads : LoadsRules F0 (allRules E.model) :=
    loadsRules_file haF rfl hp (textSays_saved hS) hl' hlF.setup.ready.stable.keys hdef hsec
  have hlong : LongEnough F0 (allRules E.model) := by
    intro x hx a ha
    obtain ⟨sec, a0, hs0, hf0, hr0⟩ := mem_allRules hS hx
    rw [hmF] at ha
    cases hf : E.model.find c!"g" x.1 with
    | none => rw [(hd _ _ (Or.inr rfl)).1.mpr hf] at ha; cases ha
    | some a1 =>
      have h1 := (hS.types sec x.1 a0 hs0 hf0).2
      have h2 := (hS.types _ x.1 a1 (Or.inr rfl) hf).2
      rw [h1] at h2; subst h2
      rw [hf] at hf0; cases hf0
      rw [((hd _ _ (Or.inr rfl)).2 a0 a hf ha).2.1]
      exact (hL.mirrors.groups x.1 a0 hf).2 x.2 hr0
  obtain ⟨⟨q1, _, hLF, _⟩, _⟩ := hlF.load hloads hlong
  set F1 := (loadPolicy F0).2 with hF1
  have hrunF : ((Method.loadPolicy).run lib F0).2 = F1 := by
    show ((loadPolicy >>= fun _ => pure Answer.done) F0).2 = F1
    rw [M.bind_run, hF1]
    rcases loadPolicy F0 with ⟨o, x⟩
    cases o <;> rfl
  set S2 := call lib j .loadPolicy S1 with hS2
  have h2j : S2.insts[j]? = some F1 := by
    have hlt : j < S1.insts.length := by
      by_contra h; rw [List.getElem?_eq_none (by omega)] at h1j; cases h1j
    rw [hS2]
    unfold call
    simp only [h1j, h1p, h1d, ← hF0, hrunF]
    split
    · simp [hlt]
    · simp [update, hlt]
  have h2i : S2.insts[i]? = some E1 :=
    ((call_others (lib := lib) (Ne.symm hij) .loadPolicy h1k).1).trans h1i
  have hcalls : calls lib [(i, .savePolicy), (j, .loadPolicy)] S = S2 := rfl
  -- the stored rules
  have hstore : SameStore E1.model F1.model := by
    have h0 : SameStore E.model F1.model := by
      obtain ⟨ad, m', hda, hld, hext, _⟩ := hloads.into
      have : m'.SameRules F1.model := by
        rw [hF1, loadPolicy_ok hda hld, if_pos hlF.auto]
        exact (buildRoleLinks_linkOnly _).1
      rw [hmF] at hext
      exact sameStore_loaded hS hd hext this
    have hfe := find_ensured E.model
    rw [hE1m]
    refine ⟨?_, ?_, ?_⟩
    · intro p p' h1 h2; rw [hfe] at h1; exact h0.rules p p' h1 h2
    · intro t; rw [hfe]; exact h0.types t
    · intro t a a' h1 h2; rw [hfe] at h1; exact h0.grouping t a a' h1 h2
  rw [hcalls]
  unfold answer
  rw [h2i, h2j]
  exact ⟨_, rfl, by rw [Option.map_some, (C135_determined hL1 hLF hstore vals []).1]⟩

/-! ### Example -/

omit [IterOrder] in
theorem storable_same {m m' : Model} (h : m.SameRules m') (hS : Storable m)
    (hk : ∀ sec, sec = c!"p" ∨ sec = c!"g" → (m'.secMap sec).keys.Nodup) : Storable m' := by
  have hf : ∀ s t a', m'.find s t = some a' → ∃ a, m.find s t = some a ∧ a.policy = a'.policy := by
    intro s t a' ha'
    cases hm : m.find s t with
    | none => rw [h.none hm] at ha'; cases ha'
    | some a =>
      obtain ⟨x, hx⟩ := h.some hm
      rw [hx] at ha'; cases ha'
      exact ⟨a, rfl, rfl⟩
  refine ⟨hk, ?_, ?_, ?_⟩
  · intro s t a' hs ha'
    obtain ⟨a, ha, _⟩ := hf s t a' ha'
    exact hS.types s t a hs ha
  · intro s t a' hs ha'
    obtain ⟨a, ha, he⟩ := hf s t a' ha'
    rw [← he]; exact hS.rules s t a hs ha
  · intro s t a' hs ha'
    obtain ⟨a, ha, he⟩ := hf s t a' ha'
    rw [← he]; exact hS.sets s t a hs ha

omit [IterOrder] in
theorem sameDefs_rbac {m m' : Model} {P G P' G' : List Rule} (h : (rbacModel P G).SameRules m)
    (h' : (rbacModel P' G').SameRules m') : SameDefs m m' := by
  have hn : ∀ {m : Model} {P G : List Rule}, (rbacModel P G).SameRules m → ∀ s t,
      s = c!"p" ∨ s = c!"g" → (t = s ∧ ∃ a, m.find s t = some a ∧ a.policy.hash = false ∧
        a.tokens = (if s = c!"p" then pTok else []) ∧
        a.value = (if s = c!"p" then c!"sub, obj, act" else c!"_, _")) ∨
      (t ≠ s ∧ m.find s t = none) := by
    intro m P G h s t hs
    by_cases ht : t = s
    · subst ht
      left
      refine ⟨rfl, ?_⟩
      rcases hs with rfl | rfl
      · obtain ⟨x, hx⟩ := h.some (show (rbacModel P G).find c!"p" c!"p" = some (pA (.vector P)) from rfl)
        exact ⟨_, hx, rfl, rfl, rfl⟩
      · obtain ⟨x, hx⟩ := h.some (show (rbacModel P G).find c!"g" c!"g" = some (gA G) from rfl)
        exact ⟨_, hx, rfl, rfl, rfl⟩
    · right
      refine ⟨ht, h.none ?_⟩
      rcases hs with rfl | rfl
      · simp [rbacModel, pDef, Model.find, UMap.get, Ne.symm ht]
      · simp [rbacModel, Model.find, UMap.get, Ne.symm ht]
  intro s t hs
  rcases hn h s t hs with ⟨e1, a1, f1, g1, t1, v1⟩ | ⟨e1, f1⟩
  · rcases hn h' s t hs with ⟨_, a2, f2, g2, t2, v2⟩ | ⟨e2, _⟩
    · refine ⟨by simp [f1, f2], fun a a' ha ha' => ?_⟩
      rw [f1] at ha; cases ha
      rw [f2] at ha'; cases ha'
      exact ⟨t2.trans t1.symm, v2.trans v1.symm, g2.trans g1.symm⟩
    · exact absurd e1 e2
  · rcases hn h' s t hs with ⟨e2, _⟩ | ⟨_, f2⟩
    · exact absurd e2 e1
    · exact ⟨by simp [f1, f2], fun a a' ha => by rw [f1] at ha; cases ha⟩

/-- An instance with links that are those of its rules, on the file of the example. -/
def madeFor (P G : List Rule) : Enforcer :=
  { (buildRoleLinks (rbac P G)).2 with adapter := some ⟨.file c!"policy.csv" none true false, []⟩ }

omit [IterOrder] in
/-- The hypotheses of `C136_load_partial` can be met: an instance without rules comes to grant what
another instance grants. -/
example (vals : List Str) : letI := insertionOrder
    let S : Sharing := ⟨c!"policy.csv", none,
      [madeFor [alice] [[c!"bob", c!"alice"]], madeFor [] []], []⟩
    ∃ o, answer miniLib 0 vals (calls miniLib [(0, .savePolicy), (1, .loadPolicy)] S) = some o ∧
      answer miniLib 1 vals (calls miniLib [(0, .savePolicy), (1, .loadPolicy)] S) = some o := by
  let _ := insertionOrder
  obtain ⟨p, _, _, l1, _⟩ := linked_rbac miniLib [alice] [[c!"bob", c!"alice"]] (by decide)
  obtain ⟨p', _, _, l2, _⟩ := linked_rbac miniLib [] [] (by decide)
  obtain ⟨q, _, m1, _⟩ := l1.plain (some ⟨.file c!"policy.csv" none true false, []⟩)
    (buildRoleLinks (rbac [alice] [[c!"bob", c!"alice"]])).2.watcher
    (buildRoleLinks (rbac [alice] [[c!"bob", c!"alice"]])).2.autoSave
    (buildRoleLinks (rbac [alice] [[c!"bob", c!"alice"]])).2.autoNotify
  obtain ⟨q', _, m2, _⟩ := l2.plain (some ⟨.file c!"policy.csv" none true false, []⟩)
    (buildRoleLinks (rbac [] [])).2.watcher (buildRoleLinks (rbac [] [])).2.autoSave
    (buildRoleLinks (rbac [] [])).2.autoNotify
  have hS : Storable (buildRoleLinks (rbac [alice] [[c!"bob", c!"alice"]])).2.model := by
    refine storable_same (buildRoleLinks_linkOnly _).1 (storable_rbac [alice] [[c!"bob", c!"alice"]] ?_) ?_
    · intro r hr
      have hw : ∀ v : Str, v ∈ ([c!"alice", c!"data1", c!"read", c!"bob"] : List Str) → Word v := by
        intro v hv
        simp only [List.mem_cons, List.not_mem_nil, or_false] at hv
        rcases hv with rfl | rfl | rfl | rfl <;>
          exact ⟨by decide, by decide, trimmed_iff.mpr (by decide)⟩
      simp only [List.cons_append, List.nil_append, List.mem_cons, List.not_mem_nil, or_false] at hr
      rcases hr with rfl | rfl
      · refine ⟨by decide, fun v hv => hw v ?_⟩
        simp only [alice, List.mem_cons, List.not_mem_nil, or_false] at hv ⊢
        tauto
      · refine ⟨by decide, fun v hv => hw v ?_⟩
        simp only [List.mem_cons, List.not_mem_nil, or_false] at hv ⊢
        tauto
    · rintro _ (rfl | rfl) <;> decide +kernel
  refine C136_load_partial (by decide) rfl (by decide) rfl rfl m1 m2
    (sameDefs_rbac (buildRoleLinks_linkOnly _).1 (buildRoleLinks_linkOnly _).1)
    ⟨none, false, [], rfl⟩ ⟨none, false, [], rfl⟩ hS ?_ vals
  intro t ht
  have h0 : policyText (madeFor [alice] [[c!"bob", c!"alice"]]).model =
      .ok c!"p, alice, data1, read\ng, bob, alice" := by decide +kernel
  have ht' := h0.symm.trans ht
  cases ht'
  exact shortLines_of_length (by decide)

end SharingProps
end Casbin
