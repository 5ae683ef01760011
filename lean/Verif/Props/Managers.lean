import Verif.ManagerLemmas
import Verif.Props.NewModel
import Verif.WorldInv

/-!
# C118: an enforcer that gets another role manager
-/

namespace Casbin
namespace ManagerProps

open Enforcer Fixtures Method ReloadProps

variable [IterOrder] {lib : ExprLib}

/-- Only role definitions refer to a role manager. -/
def OnlyRoles (m : Model) : Prop := ∀ sm ∈ m, sm.1 ≠ c!"g" → ∀ ta ∈ sm.2, ta.2.rm = none

/-- No name is defined twice. -/
def NoTwice (m : Model) : Prop := (UMap.keys m).Nodup ∧ (m.secMap c!"g").keys.Nodup

/-- The model with no role managers at all. -/
def unlinkAll (m : Model) : Model := UMap.mapVals (UMap.mapVals Assertion.unlink) m

omit [IterOrder] in
theorem find_unlinkAll (m : Model) (s t : Str) :
    (unlinkAll m).find s t = (m.find s t).map Assertion.unlink := by
  unfold Model.find unlinkAll
  rw [UMap.get_mapVals]
  cases UMap.get m s with
  | none => rfl
  | some am => simp [UMap.get_mapVals]

omit [IterOrder] in
theorem secMap_unlinkAll (m : Model) (s : Str) :
    ((unlinkAll m).secMap s).keys = (m.secMap s).keys := by
  unfold Model.secMap unlinkAll
  rw [UMap.get_mapVals]
  cases UMap.get m s with
  | none => rfl
  | some am => simp [UMap.keys_mapVals]

omit [IterOrder] in
theorem relinked_unlinkAll {m : Model} (h : OnlyRoles m) :
    m.Relinked (UMap.keys (m.secMap c!"g")) (unlinkAll m) where
  keys := (UMap.keys_mapVals _ _).symm
  other s hs := by
    unfold unlinkAll
    rw [UMap.get_mapVals]
    cases hm : UMap.get m s with
    | none => rfl
    | some am =>
      have : UMap.mapVals Assertion.unlink am = am := by
        unfold UMap.mapVals
        conv_rhs => rw [← List.map_id am]
        refine List.map_congr_left fun ta hta => ?_
        have := h _ (UMap.mem_of_get hm) hs ta hta
        obtain ⟨t, a⟩ := ta
        simp only [Assertion.unlink, id]
        rw [← this]
      simp [this]
  gkeys := (secMap_unlinkAll m _).symm
  same t := by
    rw [find_unlinkAll]
    cases m.find c!"g" t <;> rfl
  done t ht := by
    rw [find_unlinkAll]
    have : m.find c!"g" t = none := by
      rw [← Option.not_isSome_iff_eq_none, ← Model.find_secMap, UMap.get_isSome_iff]
      exact ht
    rw [this]; rfl

omit [IterOrder] in
theorem move_unlinkAll (ρ : Nat → Nat) (m : Model) : (unlinkAll m).move ρ = unlinkAll m := by
  unfold unlinkAll Model.move UMap.mapVals
  simp only [List.map_map]
  refine List.map_congr_left fun sm _ => ?_
  simp only [Function.comp_apply, List.map_map]
  congr 1

/-- C118 (partial): an enforcer that has not been asked anything yet gets another role manager, with
the same bound and matching function, whatever it held before, and the links are built. From then on
every history of calls is answered as with the links built in the role manager it had. Missing:
enforcers that have been asked before (`C118_fails`), and role managers of other kinds. -/
theorem C118_replace_partial (hk : IterOrder.ByKeys ‹_›) {E : Enforcer} {R N : RM}
    (hR : E.heap[E.rm]? = some R) (hN : N.maxLevel = R.maxLevel ∧ N.pattern = R.pattern)
    (heval : E.eval = none) (hm : OnlyRoles E.model) (hn : NoTwice E.model) (ha : E.AdBlind)
    (hok : (buildRoleLinks E).1 = .ok ()) {cs : List Method} (hcs : ∀ c ∈ cs, c.Plain) :
    (buildRoleLinks (Enforcer.setRoleManager N E).2).1 = .ok () ∧
      answers lib cs (buildRoleLinks (Enforcer.setRoleManager N E).2).2 =
        answers lib cs (buildRoleLinks E).2 := by
  have hq := (List.getElem?_eq_some_iff.mp hR).1
  set ε := Embedding.swap E.rm E.heap.length hq R with hε
  set E0 : Enforcer := { E with model := unlinkAll E.model } with hE0
  have hrel := relinked_unlinkAll hm
  have h0 : buildRoleLinks E0 = buildRoleLinks E := buildRoleLinks_relinked hrel hn.1 hn.2 hok
  have hf : Fits ε E0 := ⟨ha, Nat.le_refl _⟩
  obtain ⟨h1, h2⟩ := indep_buildRoleLinks ε E0 hf
  have hmove : move ε E0 = { E0 with heap := E.heap ++ [R], rm := E.heap.length } := by
    have e1 : ε.heap E.heap = E.heap ++ [R] := by
      simp only [hε, Embedding.swap, List.take_length, List.drop_length, hR]
      rw [show E.heap.set E.rm R = E.heap from by
        rw [← (List.getElem?_eq_some_iff.mp hR).2]; exact List.set_getElem_self ..]
      rfl
    have e2 : ε.ptr E.rm = E.heap.length := by simp [hε, Embedding.swap]
    unfold Enforcer.move
    have e3 : ε.fresh = false := rfl
    simp only [hE0, move_unlinkAll, e1, e2, e3, heval, Bool.false_eq_true, if_false, Option.map_none]
  have h3 : buildRoleLinks { E0 with heap := E.heap ++ [N], rm := E.heap.length } =
      buildRoleLinks (move ε E0) := by
    rw [hmove]
    have := buildRoleLinks_clear (E := { E0 with heap := E.heap ++ [R], rm := E.heap.length })
      (R := R) (N := N) (by simp) (by
        obtain ⟨_, _, _⟩ := R; obtain ⟨_, _, _⟩ := N
        simp only [RM.clear] at hN ⊢
        rw [hN.1, hN.2])
    simpa using this
  have h4 : buildRoleLinks (Enforcer.setRoleManager N E).2 =
      buildRoleLinks { E0 with heap := E.heap ++ [N], rm := E.heap.length } := by
    have hs : (unlinkAll E.model).Relinked (UMap.keys ((unlinkAll E.model).secMap c!"g")) E.model :=
      ⟨hrel.keys.symm, fun s hs => (hrel.other s hs).symm, hrel.gkeys.symm, fun t => (hrel.same t).symm,
        fun t ht => (hrel.done t (by rwa [secMap_unlinkAll] at ht)).symm⟩
    refine buildRoleLinks_relinked
      (E := { E0 with heap := E.heap ++ [N], rm := E.heap.length }) hs ?_ ?_ ?_
    · rw [← hrel.keys]; exact hn.1
    · show (UMap.keys ((unlinkAll E.model).secMap c!"g")).Nodup
      rw [secMap_unlinkAll]; exact hn.2
    · rw [h3, h1, h0]; exact hok
  rw [h0] at h2
  rw [h4, h3, h1, h0]
  exact ⟨hok, answers_move hk lib (Embedding.swap_grows _ _ hq R) cs _ hcs h2⟩

/-- C118 for an enforcer that has been asked before, if it gets a new evaluator as well: from then on
every history of calls is answered as with the new evaluator and the links built in the role manager
it had. -/
theorem C118_asked_partial (hk : IterOrder.ByKeys ‹_›) {E : Enforcer} {R N : RM}
    (hR : E.heap[E.rm]? = some R) (hN : N.maxLevel = R.maxLevel ∧ N.pattern = R.pattern)
    (hm : OnlyRoles E.model) (hn : NoTwice E.model) (ha : E.AdBlind)
    (hok : (buildRoleLinks (Enforcer.setEvaluator Evaluator.new E).2).1 = .ok ())
    {cs : List Method} (hcs : ∀ c ∈ cs, c.Plain) :
    let E' := (Enforcer.setEvaluator Evaluator.new E).2
    (buildRoleLinks (Enforcer.setRoleManager N E').2).1 = .ok () ∧
      answers lib cs (buildRoleLinks (Enforcer.setRoleManager N E').2).2 =
        answers lib cs (buildRoleLinks E').2 := by
  intro E'
  set E1 : Enforcer := { E with eval := none } with hE1
  have hid : ∀ m : Model, m.move (fun p => p) = m := by
    intro m
    unfold Model.move UMap.mapVals
    refine (List.map_congr_left fun sm _ => ?_).trans (List.map_id _)
    refine Prod.ext rfl ((List.map_congr_left fun ta _ => ?_).trans (List.map_id _))
    simp [Assertion.move]
  have hmove : ∀ F : Enforcer, F.eval = none → F.move .ready = { F with eval := some Evaluator.new } := by
    intro F hF
    have hev : F.evaluator = Evaluator.new := by simp [Enforcer.evaluator, hF]
    simp only [Enforcer.move, Embedding.ready, hev, if_true, Option.map_some, hid]
    rfl
  have back : ∀ F : Enforcer, F.AdBlind → F.eval = none →
      (buildRoleLinks { F with eval := some Evaluator.new }).1 = (buildRoleLinks F).1 ∧
      answers lib cs (buildRoleLinks { F with eval := some Evaluator.new }).2 =
        answers lib cs (buildRoleLinks F).2 := by
    intro F hF he
    obtain ⟨h1, h2⟩ := indep_buildRoleLinks .ready F ⟨hF, trivial⟩
    rw [← hmove F he, h1]
    exact ⟨rfl, answers_ready hk lib cs _ hcs h2.1⟩
  have hrun : (buildRoleLinks E1).1 = .ok () := (back E1 ha rfl).1.symm.trans hok
  obtain ⟨r1, r2⟩ := C118_replace_partial (lib := lib) hk (E := E1) hR hN rfl hm hn ha hrun hcs
  obtain ⟨b1, b2⟩ := back (Enforcer.setRoleManager N E1).2 ha rfl
  obtain ⟨c1, c2⟩ := back E1 ha rfl
  refine ⟨b1.trans r1, b2.trans (r2.trans c2.symm)⟩

omit [IterOrder] in
/-- C118 is false once the enforcer has been asked: its evaluator keeps the role manager of the first
request. The role of alice is removed and the links are built in the new role manager, which says that
alice does not have the role; the request is still granted. With the old role manager it is denied. -/
theorem C118_fails : (let _ := insertionOrder
    let E := after (stdLib noRx) [.buildRoleLinks, .ask [] (alice.map .str)]
      (construct (rbacModel [[c!"admin", c!"data1", c!"read"]] [[c!"alice", c!"admin"]]) none).2
    let cs := [Method.buildRoleLinks, .edit (.remove true c!"g" [c!"alice", c!"admin"]),
      .roles c!"alice" [], .ask [] (alice.map .str)]
    (answers (stdLib noRx) cs E, answers (stdLib noRx) cs (Enforcer.setRoleManager (RM.new 10) E).2)) =
    ([.ok .done, .ok (.bool true), .ok (.names []), .ok (.bool false)],
      [.ok .done, .ok (.bool true), .ok (.names []), .ok (.bool true)]) := by
  decide +kernel

omit [IterOrder] in
/-- Non-vacuity of C118 with a new evaluator: the calls of `C118_fails` are answered alike. -/
example : (let _ := insertionOrder
    let E := after (stdLib noRx) [.buildRoleLinks, .ask [] (alice.map .str)]
      (construct (rbacModel [[c!"admin", c!"data1", c!"read"]] [[c!"alice", c!"admin"]]) none).2
    let E' := (Enforcer.setEvaluator Evaluator.new E).2
    let cs := [Method.ask [] (alice.map .str), .edit (.remove true c!"g" [c!"alice", c!"admin"]),
      .roles c!"alice" [], .ask [] (alice.map .str)]
    (E.eval.isSome, (buildRoleLinks E').1,
      answers (stdLib noRx) cs (buildRoleLinks (Enforcer.setRoleManager (RM.new 10) E').2).2)) =
    (true, .ok (), [.ok (.bool true), .ok (.bool true), .ok (.names []), .ok (.bool false)]) := by
  decide +kernel

/-! ## In a program with several enforcers -/

omit [IterOrder] in
/-- C118: `SetRoleManager` and `SetEvaluator` of one enforcer among several, with an object that the
caller has made, do to it what they do to an enforcer alone, and nothing to the others. -/
theorem C118_world {W : World} {i : Nat} {o : Obj} {E : Enforcer} (ho : W.objs[i]? = some (some o))
    (hE : W.view o = some E) (n : Nat) :
    let V := (World.setRoleManager i W.rms.length (World.newRm n W).2).2
    let U := (World.setEvaluator i W.evals.length (World.newEval W).2).2
    (∃ o', V.objs[i]? = some (some o') ∧
      V.view o' = some (Enforcer.setRoleManager (RM.new n) E).2) ∧
    (∃ o', U.objs[i]? = some (some o') ∧
      U.view o' = some (Enforcer.setEvaluator Evaluator.new E).2) ∧
    ∀ j, j ≠ i → V.objs[j]? = W.objs[j]? ∧ U.objs[j]? = W.objs[j]? ∧
      ∀ x F, W.view x = some F → V.view x = some { F with heap := F.heap ++ [RM.new n] } ∧
        U.view x = some F := by
  have hlt := (List.getElem?_eq_some_iff.mp ho).1
  intro V U
  have hV : V = { W with rms := W.rms ++ [RM.new n], objs := W.objs.set i (some { o with rm := W.rms.length }) } := by
    simp only [V, World.setRoleManager, World.newRm, World.setObj, World.withObj, M.modify, ho]
  have hU : U = { W with evals := W.evals ++ [Evaluator.new],
                         objs := W.objs.set i (some { o with eval := some W.evals.length }) } := by
    simp only [U, World.setEvaluator, World.newEval, World.setObj, World.withObj, M.modify, ho]
  have hmore : ∀ (q : Option Nat) (x : Option Evaluator), deref W.evals q = some x →
      deref (W.evals ++ [Evaluator.new]) q = some x := by
    intro q x h
    cases q with
    | none => exact h
    | some k =>
      simp only [deref, Option.map_eq_some_iff] at h ⊢
      obtain ⟨y, h1, h2⟩ := h
      exact ⟨y, by rw [List.getElem?_append_left (List.getElem?_eq_some_iff.mp h1).1]; exact h1, h2⟩
  rw [hV, hU]
  refine ⟨⟨_, List.getElem?_set_self hlt, ?_⟩, ⟨_, List.getElem?_set_self hlt, ?_⟩, fun j hj =>
    ⟨List.getElem?_set_ne (Ne.symm hj), List.getElem?_set_ne (Ne.symm hj), fun x F hF => ⟨?_, ?_⟩⟩⟩
  · obtain ⟨v1, v2, v3, v4, v5, v6, v7, v8, v9, v10⟩ := World.view_eq hE
    simp only [World.view, v1, v2, v3, v4]
    show _ = some { E with heap := E.heap ++ [RM.new n], rm := E.heap.length }
    rw [v5, v7, v8, v9, v10]
  · obtain ⟨v1, v2, v3, v4, v5, v6, v7, v8, v9, v10⟩ := World.view_eq hE
    have v4' : deref (W.evals ++ [Evaluator.new]) (some W.evals.length) = some (some Evaluator.new) := by
      simp [deref]
    simp only [World.view, v1, v2, v3, v4']
    show _ = some { E with eval := some Evaluator.new }
    rw [← v5, ← v6, ← v7, ← v8, ← v9, ← v10]
  · obtain ⟨v1, v2, v3, v4, v5, v6, v7, v8, v9, v10⟩ := World.view_eq hF
    simp only [World.view, v1, v2, v3, v4]
    rw [v5, v6, v7, v8, v9, v10]
  · obtain ⟨v1, v2, v3, v4, v5, v6, v7, v8, v9, v10⟩ := World.view_eq hF
    simp only [World.view, v1, v2, v3, hmore _ _ v4]
    rw [← v5, ← v6, ← v7, ← v8, ← v9, ← v10]

omit [IterOrder] in
/-- Non-vacuity of C118: the new role manager held another role before. -/
example : (let _ := insertionOrder
    let E := (buildRoleLinks
      (construct (rbacModel [[c!"admin", c!"data1", c!"read"]] [[c!"alice", c!"admin"]]) none).2).2
    let cs := [Method.ask [] (alice.map .str), .ask [] (carol.map .str), .roles c!"alice" []]
    answers (stdLib noRx) cs (buildRoleLinks (Enforcer.setRoleManager
      ⟨[(c!"carol", [c!"admin"]), (c!"admin", [])], 10, none⟩ E).2).2) =
    [.ok (.bool true), .ok (.bool false), .ok (.names [c!"admin"])] := by
  decide +kernel

omit [IterOrder] in
/-- The hypotheses of C118 hold for it. -/
example : (let _ := insertionOrder
    let E := (buildRoleLinks
      (construct (rbacModel [[c!"admin", c!"data1", c!"read"]] [[c!"alice", c!"admin"]]) none).2).2
    OnlyRoles E.model ∧ NoTwice E.model ∧ E.eval.isNone ∧ E.adapter = none ∧
      (buildRoleLinks E).1 = .ok () ∧
      (E.heap[E.rm]?.map fun R => (R.maxLevel, R.pattern.isNone)) = some (10, true)) := by
  intro _ E
  refine ⟨?_, ?_, by decide +kernel, by decide +kernel, by decide +kernel, by decide +kernel⟩
  · unfold OnlyRoles; decide +kernel
  · unfold NoTwice; decide +kernel

end ManagerProps
end Casbin
