import Verif.WorldInv
import Verif.Props.NewModel

/-!
# C119–C120: several enforcers in one program
-/

namespace Casbin
namespace WorldProps

open Enforcer Fixtures Method ReloadProps

variable [IterOrder] {lib : ExprLib}

/-! ## C120 -/

/-- What a program does with enforcers that share nothing: it makes one from a new model and a new
adapter, calls a method, or copies an enforcer and gives the copy a new model and a new adapter.
Enforcers are numbered in the order they are made. -/
inductive Step
  | make (m : Model) (a : Option Adapter)
  | call (i : Nat) (c : Method)
  | fork (i : Nat) (m : Model) (a : Adapter)

/-- The models are new, and adapters of the user do not look at role managers. -/
def Step.Own : Step → Prop
  | .make m a => m.Unused ∧ ∀ x, a = some x → x.Blind
  | .call _ c => c.Plain
  | .fork _ m a => m.Unused ∧ a.Blind

def Step.run (lib : ExprLib) : Step → M World Answer
  | .make m a => do World.make m a; pure .done
  | .call i c => World.call lib i c
  | .fork i m a => do
    let W ← M.get
    World.copy i
    let _ ← World.call lib W.objs.length (.setModel m)
    World.call lib W.objs.length (.setAdapter a)

/-- How the calls end, with the number of the enforcer. -/
def together (lib : ExprLib) : List Step → World → List (Nat × Outcome Answer)
  | [], _ => []
  | s :: ss, W =>
    match s with
    | .call i _ => (i, (s.run lib W).1) :: together lib ss (s.run lib W).2
    | _ => together lib ss (s.run lib W).2

def after (lib : ExprLib) : List Step → World → World
  | [], W => W
  | s :: ss, W => after lib ss (s.run lib W).2

/-- The answers of enforcer `i`. -/
def heard (i : Nat) (l : List (Nat × Outcome Answer)) : List (Outcome Answer) :=
  (l.filter fun x => x.1 = i).map Prod.snd

/-- The calls of enforcer `i`. -/
def callsTo (i : Nat) : List Step → List Method
  | [] => []
  | .call j c :: ss => if j = i then c :: callsTo i ss else callsTo i ss
  | _ :: ss => callsTo i ss

/-- The enforcer that a constructor leaves, when it does not throw. -/
def born (m : Model) (a : Option Adapter) : Option Enforcer :=
  match (construct m a).1 with
  | .ok _ => some (construct m a).2
  | _ => none

open World

omit [IterOrder] in
theorem inv_empty : Inv World.empty [] (fun _ => []) where
  len := rfl
  rep i o h := by simp [World.empty] at h
  dead i h := by simp [World.empty] at h
  apart i j a b _ h := by simp [World.empty] at h

theorem inv_fork {W : World} {Es : List (Option Enforcer)} {pos : Nat → List Nat} (h : Inv W Es pos)
    {i : Nat} {E : Enforcer} (hi : Es[i]? = some (some E)) {m : Model} (hm : m.Unused) {a : Adapter}
    (ha : a.Blind) :
    ∃ pos', Inv ((Step.fork i m a).run lib W).2 (Es ++ [some (newWith m (some a))]) pos' := by
  obtain ⟨o, ho, hR⟩ := h.live hi
  have hrun : ((Step.fork i m a).run lib W).2 =
      { W.more [m] [a] [] [RM.new 10] with objs := W.objs ++ [some
        { model := W.models.length, rm := W.rms.length, adapter := some W.adapters.length,
          watcher := none, eval := none, enabled := true, autoSave := true, autoBuild := true,
          autoNotify := true }] } := by
    simp [Step.run, World.call, World.copy, World.setModel, World.setAdapter, World.setObj,
      World.initObj, withObj, M.bind_run, ho, more]
  rw [hrun]
  have := h.room.fresh (i := W.objs.length) (m := m) (by simp) hm [a]
    (ai := some W.adapters.length) (a := some a) (by simp [deref])
    (fun x hx => by obtain rfl := Option.some.inj hx; exact ha)
    (fun j b E _ _ hR => unshared_new (view_eq hR.view).2.1) [] [] List.nodup_nil (by simp) rfl
    (by simp) (fun _ _ _ _ _ _ p hp => by simp at hp)
  simp only [List.nil_append] at this
  rw [List.set_append_right _ _ (Nat.le_refl _), h.len, List.set_append_right _ _ (Nat.le_refl _)] at this
  refine ⟨Function.update pos Es.length [W.rms.length], ?_⟩
  rw [newWith_eq]
  rw [Nat.sub_self] at this
  exact this

/-- The world after any such program holds enforcers that share nothing. -/
def Reached (W : World) (Es : List (Option Enforcer)) : Prop := ∃ pos, Inv W Es pos

/-- What a step does to enforcers that are kept apart: each in a place of its own. -/
def Step.alone (lib : ExprLib) : Step → List (Option Enforcer) → List (Option Enforcer)
  | .make m a, Es => Es ++ [born m a]
  | .call i c, Es =>
    match Es[i]? with
    | some (some E) => Es.set i (some (c.run lib E).2)
    | _ => Es
  | .fork i m a, Es =>
    match Es[i]? with
    | some (some _) => Es ++ [some (newWith m (some a))]
    | _ => Es

/-- How a call ends on an enforcer that is kept apart. -/
def reply (lib : ExprLib) (Es : List (Option Enforcer)) (i : Nat) (c : Method) : Outcome Answer :=
  match Es[i]? with
  | some (some E) => (c.run lib E).1
  | _ => .ub .nullDeref

/-- The same program with enforcers that are kept apart. -/
def separately (lib : ExprLib) : List Step → List (Option Enforcer) → List (Nat × Outcome Answer)
  | [], _ => []
  | s :: ss, Es =>
    match s with
    | .call i c => (i, reply lib Es i c) :: separately lib ss (s.alone lib Es)
    | _ => separately lib ss (s.alone lib Es)

omit [IterOrder] in
theorem withObj_dead {W : World} {j : Nat} (h : ∀ o, W.objs[j]? ≠ some (some o)) {α : Type}
    (f : Obj → M World α) : withObj j f W = (.ub .nullDeref, W) := by
  unfold withObj
  rcases ho : W.objs[j]? with _ | _ | o
  · rfl
  · rfl
  · exact absurd ho (h o)

theorem call_dead {W : World} {j : Nat} (h : ∀ o, W.objs[j]? ≠ some (some o)) (c : Method) :
    World.call lib j c W = (.ub .nullDeref, W) := by
  cases c <;> (simp only [World.call, World.onObj]; exact withObj_dead h _)

theorem reached_step (hk : IterOrder.ByKeys ‹_›) {W : World} {Es : List (Option Enforcer)}
    (h : Reached W Es) {s : Step} (hs : s.Own) :
    Reached (s.run lib W).2 (s.alone lib Es) ∧
      ∀ i c, s = .call i c → (s.run lib W).1 = reply lib Es i c := by
  obtain ⟨pos, h⟩ := h
  have dead : ∀ {j : Nat}, (∀ E, Es[j]? ≠ some (some E)) → ∀ o, W.objs[j]? ≠ some (some o) :=
    fun hj o ho => by
      obtain ⟨E, hE, -⟩ := h.rep _ o ho
      exact hj E hE
  cases s with
  | make m a =>
    obtain ⟨-, pos', h2⟩ := h.make hs.1 hs.2
    refine ⟨⟨pos', ?_⟩, fun _ _ h => by cases h⟩
    simp only [Step.run, M.bind_run]
    rcases hr : World.make m a W with ⟨o, W'⟩
    rw [hr] at h2
    cases o <;> exact h2
  | call j c =>
    by_cases hj : ∃ E, Es[j]? = some (some E)
    · obtain ⟨E, hE⟩ := hj
      obtain ⟨h1, pos', h2⟩ := h.call hk lib hs hE
      refine ⟨⟨pos', ?_⟩, fun i c' he => ?_⟩
      · simp only [Step.alone, hE]
        exact h2
      · cases he
        simp only [reply, hE]
        exact h1
    · have hd := dead (not_exists.mp hj)
      have hr : (Step.call j c).run lib W = (.ub .nullDeref, W) := call_dead hd c
      rw [hr]
      refine ⟨⟨pos, ?_⟩, fun i c' he => ?_⟩
      · simp only [Step.alone]
        split
        · rename_i E hE; exact absurd ⟨_, hE⟩ hj
        · exact h
      · cases he
        unfold reply
        split
        · rename_i E hE; exact absurd ⟨_, hE⟩ hj
        · rfl
  | fork j m a =>
    refine ⟨?_, fun _ _ h => by cases h⟩
    by_cases hj : ∃ E, Es[j]? = some (some E)
    · obtain ⟨E, hE⟩ := hj
      obtain ⟨pos', h2⟩ := inv_fork (lib := lib) h hE hs.1 hs.2
      refine ⟨pos', ?_⟩
      simp only [Step.alone, hE]
      exact h2
    · have hr : ((Step.fork j m a).run lib W).2 = W := by
        simp only [Step.run, M.bind_run, M.get_run, World.copy,
          withObj_dead (dead (not_exists.mp hj))]
      rw [hr]
      refine ⟨pos, ?_⟩
      simp only [Step.alone]
      split
      · rename_i E hE; exact absurd ⟨_, hE⟩ hj
      · exact h

theorem together_eq (hk : IterOrder.ByKeys ‹_›) : ∀ {ss : List Step} {W : World}
    {Es : List (Option Enforcer)}, Reached W Es → (∀ s ∈ ss, s.Own) →
      together lib ss W = separately lib ss Es
  | [], _, _, _, _ => rfl
  | s :: ss, W, Es, h, hs => by
    obtain ⟨h1, h2⟩ := reached_step (lib := lib) hk h (hs s List.mem_cons_self)
    have ih := together_eq hk h1 fun s hm => hs s (List.mem_cons_of_mem _ hm)
    cases s with
    | make m a => exact ih
    | fork i m a => exact ih
    | call i c =>
      unfold together separately
      rw [h2 i c rfl, ih]

/-- C120: in a program whose enforcers share nothing, with any interleaving of the calls, every call
ends as it would if every enforcer were alone in the program. -/
theorem C120_isolation (hk : IterOrder.ByKeys ‹_›) {ss : List Step} (hs : ∀ s ∈ ss, s.Own) :
    together lib ss World.empty = separately lib ss [] :=
  together_eq hk ⟨_, inv_empty⟩ hs

theorem reached_after (hk : IterOrder.ByKeys ‹_›) : ∀ {ss : List Step} {W : World}
    {Es : List (Option Enforcer)}, Reached W Es → (∀ s ∈ ss, s.Own) →
      ∃ Es', Reached (after lib ss W) Es'
  | [], _, Es, h, _ => ⟨Es, h⟩
  | s :: ss, _, _, h, hs =>
    reached_after (ss := ss) hk (reached_step (lib := lib) hk h (hs s List.mem_cons_self)).1
      fun s hm => hs s (List.mem_cons_of_mem _ hm)

theorem heard_separately {i : Nat} : ∀ {ss : List Step} {Es : List (Option Enforcer)} {E : Enforcer},
    Es[i]? = some (some E) → heard i (separately lib ss Es) = answers lib (callsTo i ss) E
  | [], _, _, _ => rfl
  | .make m a :: ss, Es, E, h =>
    heard_separately (ss := ss) (show (Es ++ [born m a])[i]? = _ from getElem?_append_some h _)
  | .fork j m a :: ss, Es, E, h => by
    refine heard_separately (ss := ss) (Es := Step.alone lib (.fork j m a) Es) ?_
    simp only [Step.alone]
    split
    · exact getElem?_append_some h _
    · exact h
  | .call j c :: ss, Es, E, h => by
    by_cases hj : j = i
    · subst hj
      have hlt := (List.getElem?_eq_some_iff.mp h).1
      have ih := heard_separately (ss := ss) (Es := Step.alone lib (.call j c) Es)
        (E := (c.run lib E).2) (i := j) (by
          simp only [Step.alone, h]
          exact List.getElem?_set_self hlt)
      simp only [separately, callsTo, if_true, answers, ← ih]
      simp [heard, reply, h]
    · have ih := heard_separately (ss := ss) (Es := Step.alone lib (.call j c) Es) (E := E) (i := i) (by
          simp only [Step.alone]
          split
          · rw [List.getElem?_set_ne hj, h]
          · exact h)
      simp only [separately, callsTo, if_neg hj, ← ih]
      simp [heard, hj]

/-- C120 for one enforcer: after any such program, a new enforcer answers every history of calls as
alone, whatever is done with the others in between. -/
theorem C120_new (hk : IterOrder.ByKeys ‹_›) {pre post : List Step} (hpre : ∀ s ∈ pre, s.Own)
    (hpost : ∀ s ∈ post, s.Own) {m : Model} (hm : m.Unused) {a : Option Adapter}
    (ha : ∀ x, a = some x → x.Blind) (hok : (construct m a).1 = .ok ()) :
    let W := after lib pre World.empty
    heard W.objs.length (together lib post ((Step.make m a).run lib W).2) =
      answers lib (callsTo W.objs.length post) (construct m a).2 := by
  intro W
  obtain ⟨Es, hW⟩ := reached_after (lib := lib) hk ⟨_, inv_empty⟩ hpre
  have hlen : W.objs.length = Es.length := hW.elim fun _ h => h.len
  have hm' : (Step.make m a).Own := ⟨hm, ha⟩
  rw [together_eq hk (reached_step (lib := lib) hk hW hm').1 hpost, hlen]
  refine heard_separately ?_
  simp [Step.alone, born, hok]

/-- C119 (partial): a copy that gets a new model and a new adapter is an enforcer of its own: it
answers as a new one, and the original and all others answer as if the copy had not been made. -/
theorem C119_fork_partial (hk : IterOrder.ByKeys ‹_›) {pre post : List Step} (hpre : ∀ s ∈ pre, s.Own)
    (hpost : ∀ s ∈ post, s.Own) {m : Model} (hm : m.Unused) {a : Adapter} (ha : a.Blind) {i : Nat} :
    let W := after lib pre World.empty
    let W' := ((Step.fork i m a).run lib W).2
    (∃ o, W.objs[i]? = some (some o)) →
    heard W.objs.length (together lib post W') =
      answers lib (callsTo W.objs.length post) (newWith m (some a)) ∧
    ∀ j o, W.objs[j]? = some (some o) →
      heard j (together lib post W') = heard j (together lib post W) := by
  intro W W' ⟨o, ho⟩
  obtain ⟨Es, hW⟩ := reached_after (lib := lib) hk ⟨_, inv_empty⟩ hpre
  have hlen : W.objs.length = Es.length := hW.elim fun _ h => h.len
  have live : ∀ {j o}, W.objs[j]? = some (some o) → ∃ E, Es[j]? = some (some E) := fun hj =>
    hW.elim fun _ h => (h.rep _ _ hj).imp fun _ h => h.1
  have hf : (Step.fork i m a).Own := ⟨hm, ha⟩
  obtain ⟨E, hE⟩ := live ho
  rw [together_eq hk (reached_step (lib := lib) hk hW hf).1 hpost, together_eq hk hW hpost]
  have hal : (Step.fork i m a).alone lib Es = Es ++ [some (newWith m (some a))] := by
    simp only [Step.alone, hE]
  rw [hal]
  refine ⟨?_, ?_⟩
  · rw [hlen]
    exact heard_separately (by simp)
  · intro j o' hj
    obtain ⟨E', hE'⟩ := live hj
    rw [heard_separately hE', heard_separately (getElem?_append_some hE' _)]

omit [IterOrder] in
/-- C119 is false: an edit through the copy of an enforcer changes what the original answers, and an
enforcer made anew from a like model does not change. -/
theorem C119_fails : (let _ := insertionOrder
    let W := after (stdLib noRx) [.make (aclModel (.vector [alice])) none] World.empty
    let c := Method.edit (.add false c!"p" bob)
    let q := Method.ask [] (bob.map .str)
    (together (stdLib noRx) [.call 0 q, .call 1 c, .call 0 q] (World.copy 0 W).2 =
      [(0, .ok (.bool false)), (1, .ok (.bool true)), (0, .ok (.bool true))]) ∧
    (together (stdLib noRx) [.make (aclModel (.vector [alice])) none, .call 0 q, .call 1 c, .call 0 q] W =
      [(0, .ok (.bool false)), (1, .ok (.bool true)), (0, .ok (.bool false))])) := by
  intro _ W c q
  exact ⟨by decide +kernel, by decide +kernel⟩

omit [IterOrder] in
/-- Non-vacuity of C119 and C120: two enforcers with role links and a copy of the first with a model
of its own. The calls are mixed; each enforcer answers from its own rules and links. -/
example : (let _ := insertionOrder
    let P := [[c!"admin", c!"data1", c!"read"]]
    let q := Method.ask [] (alice.map .str)
    let ss := [Step.make (rbacModel P [[c!"alice", c!"admin"]]) none, .call 0 .buildRoleLinks,
      .make (rbacModel P []) none, .call 1 .buildRoleLinks, .call 0 q, .call 1 q,
      .call 1 (.edit (.add true c!"g" [c!"alice", c!"admin"])),
      .call 0 (.edit (.remove true c!"g" [c!"alice", c!"admin"])), .call 0 q, .call 1 q,
      .fork 1 (rbacModel P []) niceAdapter, .call 2 q, .call 1 q]
    (heard 0 (together (stdLib noRx) ss World.empty), heard 1 (together (stdLib noRx) ss World.empty),
      heard 2 (together (stdLib noRx) ss World.empty))) =
    ([.ok .done, .ok (.bool true), .ok (.bool true), .ok (.bool false)],
      [.ok .done, .ok (.bool false), .ok (.bool true), .ok (.bool true), .ok (.bool true)],
      [.ok (.bool false)]) := by
  decide +kernel

omit [IterOrder] in
/-- The steps of this program are its own. -/
example : (Step.make (rbacModel [[c!"admin", c!"data1", c!"read"]] []) none).Own ∧
    (Step.fork 1 (rbacModel [[c!"admin", c!"data1", c!"read"]] []) niceAdapter).Own ∧
    (Step.call 1 (.edit (.add true c!"g" [c!"alice", c!"admin"]))).Own ∧ insertionOrder.ByKeys := by
  refine ⟨⟨?_, fun _ h => by cases h⟩, ⟨?_, fun _ => .pure _⟩, trivial, insertionOrder_byKeys⟩ <;>
  · unfold Model.Unused
    decide

end WorldProps
end Casbin
