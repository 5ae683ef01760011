import Verif.CachedWorld
import Verif.WorldInv
import Verif.Props.CachedBatch
import Verif.ConditionFixtures

/-!
# C147: copies of a caching enforcer
-/

namespace Casbin
namespace CachedWorldProps

open CachedWorld CachedEnforcer CachedProps DecisionProps Fixtures
open World (view_eq view_of)

variable [IterOrder] {lib : ExprLib} {E : Enforcer} {r p e : Assertion}

/-! ## The maps -/

/-- The enforcer whose map the operation looks answers up in and stores them. -/
def asksOf : Op → Option Nat
  | .ask i _ _ => some i
  | .askMap i _ => some i
  | .batch i _ => some i
  | .users i _ => some i
  | _ => none

/-- The enforcer whose map or switch the operation is about: it asks it, empties its map, sets its
switch or takes its map away. -/
def about : Op → Option Nat
  | .ask i _ _ => some i
  | .askMap i _ => some i
  | .batch i _ => some i
  | .users i _ => some i
  | .enable i _ => some i
  | .invalidate i => some i
  | .move i => some i
  | _ => none

omit [IterOrder] in
theorem onCached_other {α : Type} {i j : Nat} (f : M CachedEnforcer α) (C : CachedWorld) (h : j ≠ i) :
    (onCached j f C).2.maps[i]? = C.maps[i]? := by
  unfold onCached
  split
  · split
    · simp only
      rw [List.getElem?_set_ne h]
    · rfl
  · rfl

omit [IterOrder] in
theorem copy_maps {i : Nat} (j : Nat) {C : CachedWorld} (h : i < C.maps.length) :
    (copy j C).2.maps[i]? = C.maps[i]? := by
  unfold copy
  split
  · split
    · simp only
      rw [List.getElem?_append_left h]
    · rfl
  · rfl

omit [IterOrder] in
theorem move_maps {i j : Nat} {C : CachedWorld} (h : i < C.maps.length) (hj : j ≠ i) :
    (move j C).2.maps[i]? = C.maps[i]? := by
  unfold move
  split
  · split
    · simp only
      rw [List.getElem?_append_left (by simpa using h), List.getElem?_set_ne hj]
    · rfl
  · rfl

/-- C147: only what is done to an enforcer itself changes its map and its switch. A copy asked, emptied
or switched off, and a change of the shared policy, leave them as they are. -/
theorem C147_maps {C : CachedWorld} {i : Nat} (h : i < C.maps.length) {op : Op}
    (ho : about op ≠ some i) : (op.run lib C).maps[i]? = C.maps[i]? := by
  cases op with
  | copy j => exact copy_maps j h
  | move j => exact move_maps h (fun e => ho (by rw [e]; rfl))
  | ask j m vs => exact onCached_other _ C (fun e => ho (by rw [e]; rfl))
  | askMap j vs => exact onCached_other _ C (fun e => ho (by rw [e]; rfl))
  | batch j rs => exact onCached_other _ C (fun e => ho (by rw [e]; rfl))
  | users j perm => exact onCached_other _ C (fun e => ho (by rw [e]; rfl))
  | call j c => rfl
  | enable j b => exact onCached_other _ C (fun e => ho (by rw [e]; rfl))
  | invalidate j => exact onCached_other _ C (fun e => ho (by rw [e]; rfl))

/-! ## Fresh answers -/

/-- The map of enforcer `i` is empty. -/
def Emptied (C : CachedWorld) (i : Nat) : Prop := ∃ b, C.maps[i]? = some ([], b)

omit [IterOrder] in
theorem Emptied.lt {C : CachedWorld} {i : Nat} (h : Emptied C i) : i < C.maps.length :=
  let ⟨_, h⟩ := h
  (List.getElem?_eq_some_iff.mp h).1

omit [IterOrder] in
theorem emptied_move {C : CachedWorld} {i : Nat} (h : Emptied C i) : Emptied (move i C).2 i := by
  have hl := h.lt
  obtain ⟨b, h⟩ := h
  unfold move
  rw [h]
  simp only
  split
  · refine ⟨b, ?_⟩
    simp only
    rw [List.getElem?_append_left (by simpa using hl), List.getElem?_set_self hl]
  · exact ⟨b, h⟩

omit [IterOrder] in
theorem emptied_on {α : Type} {C : CachedWorld} {i : Nat} (h : Emptied C i) {f : M CachedEnforcer α}
    (hf : ∀ c, c.cache = [] → (f c).2.cache = []) : Emptied (onCached i f C).2 i := by
  have hl := h.lt
  obtain ⟨b, h⟩ := h
  unfold onCached
  split
  · rename_i o x ho hx
    rw [h] at hx
    obtain rfl := Option.some.inj hx
    split
    · rename_i E hE
      refine ⟨(f ⟨E, [], b⟩).2.enableCache, ?_⟩
      simp only
      rw [List.getElem?_set_self hl, hf _ rfl]
    · exact ⟨b, h⟩
  · exact ⟨b, h⟩

theorem emptied_step {C : CachedWorld} {i : Nat} (h : Emptied C i) {op : Op}
    (ho : asksOf op ≠ some i) : Emptied (op.run lib C) i := by
  by_cases hb : about op = some i
  · cases op with
    | enable j b =>
      obtain rfl : j = i := Option.some.inj hb
      exact emptied_on h (fun c hc => hc)
    | invalidate j =>
      obtain rfl : j = i := Option.some.inj hb
      exact emptied_on h (fun c _ => rfl)
    | move j =>
      obtain rfl : j = i := Option.some.inj hb
      exact emptied_move h
    | copy j => cases hb
    | call j c => cases hb
    | ask j m vs => exact absurd hb ho
    | askMap j vs => exact absurd hb ho
    | batch j rs => exact absurd hb ho
    | users j perm => exact absurd hb ho
  · unfold Emptied
    rw [C147_maps h.lt hb]
    exact h

theorem emptied_runs {i : Nat} : ∀ {ops : List Op} {C : CachedWorld}, Emptied C i →
    (∀ op ∈ ops, asksOf op ≠ some i) → Emptied (runs lib ops C) i
  | [], _, h, _ => h
  | op :: ops, _, h, ho =>
    emptied_runs (ops := ops) (emptied_step h (ho op List.mem_cons_self))
      fun o hm => ho o (List.mem_cons_of_mem _ hm)

/-- An enforcer whose map is empty answers as the enforcer without a map. -/
theorem ask_emptied {C : CachedWorld} {i : Nat} (h : Emptied C i) (matcher : Str)
    (vals : List ReqVal) : (ask lib i matcher vals C).1 =
      (World.onObj i (Enforcer.enforceWithMatcher lib matcher vals) C.world).1 := by
  obtain ⟨b, h⟩ := h
  unfold ask onCached World.onObj World.withObj
  rw [h]
  cases ho : C.world.objs[i]? with
  | none => rfl
  | some x =>
    cases x with
    | none => rfl
    | some o =>
      simp only
      cases C.world.view o with
      | none => rfl
      | some E =>
        simp only
        exact throughCache_miss fun _ => rfl

/-- C147: after `InvalidateCache` of an enforcer, and until it is asked again, it answers from the rules
as they are, whatever is done to its copies, and by whichever of them the rules are changed. -/
theorem C147_fresh {C : CachedWorld} {i : Nat} {o : Obj} (ho : C.world.objs[i]? = some (some o))
    (hE : C.world.view o = some E) (hi : i < C.maps.length) (ops : List Op)
    (h : ∀ op ∈ ops, asksOf op ≠ some i) (matcher : Str) (vals : List ReqVal) :
    let C' := runs lib (.invalidate i :: ops) C
    (ask lib i matcher vals C').1 =
      (World.onObj i (Enforcer.enforceWithMatcher lib matcher vals) C'.world).1 := by
  refine ask_emptied (emptied_runs ?_ h) matcher vals
  show Emptied (onCached i invalidateCache C).2 i
  unfold onCached
  rw [ho, List.getElem?_eq_getElem hi]
  simp only [hE]
  exact ⟨(C.maps[i]).2, by simp [invalidateCache, M.modify_run, hi]⟩

/-! ## A copy answers as the original -/

omit [IterOrder] in
theorem onCached_fst {α : Type} (f : M CachedEnforcer α) {C : CachedWorld} {i : Nat} {o : Obj}
    {x : UMap Str Bool × Bool} (ho : C.world.objs[i]? = some (some o)) (hx : C.maps[i]? = some x) :
    (onCached i f C).1 = match C.world.view o with
      | some E => (f ⟨E, x.1, x.2⟩).1
      | none => .ub .nullDeref := by
  unfold onCached
  rw [ho, hx]
  simp only
  cases C.world.view o <;> rfl

omit [IterOrder] in
theorem view_objs (W : World) (l : List (Option Obj)) (o : Obj) :
    ({ W with objs := l } : World).view o = W.view o := rfl

omit [IterOrder] in
theorem copy_run {C : CachedWorld} {i : Nat} {o : Obj} {x : UMap Str Bool × Bool}
    (ho : C.world.objs[i]? = some (some o)) (hx : C.maps[i]? = some x) :
    copy i C = (.ok (), { world := { C.world with objs := C.world.objs ++ [some o] },
                          maps := C.maps ++ [x] }) := by
  unfold copy World.copy World.withObj
  simp only [hx, ho, M.modify_run]

omit [IterOrder] in
theorem move_run {C : CachedWorld} {i : Nat} {o : Obj} {x : UMap Str Bool × Bool}
    (ho : C.world.objs[i]? = some (some o)) (hx : C.maps[i]? = some x) :
    move i C = (.ok (), { world := { C.world with objs := C.world.objs ++ [some o] },
                          maps := C.maps.set i ([], x.2) ++ [x] }) := by
  unfold move World.copy World.withObj
  simp only [hx, ho, M.modify_run]

/-- C147: a copy answers the first request as the original would have, from the map or not, and making
it changes nothing for the original. -/
theorem C147_copy {C : CachedWorld} (hl : C.maps.length = C.world.objs.length) {i : Nat} {o : Obj}
    (ho : C.world.objs[i]? = some (some o)) (matcher : Str) (vals : List ReqVal) :
    let C' := (copy i C).2
    (ask lib C.world.objs.length matcher vals C').1 = (ask lib i matcher vals C).1 ∧
      (ask lib i matcher vals C').1 = (ask lib i matcher vals C).1 := by
  have hi : i < C.world.objs.length := (List.getElem?_eq_some_iff.mp ho).1
  have hx : C.maps[i]? = some (C.maps[i]'(hl ▸ hi)) := List.getElem?_eq_getElem _
  intro C'
  have hC : C' = _ := congrArg Prod.snd (copy_run ho hx)
  unfold ask
  rw [onCached_fst _ ho hx, hC]
  refine ⟨?_, ?_⟩
  · rw [onCached_fst (o := o) (x := C.maps[i]'(hl ▸ hi)) _ (by simp) (by simp [← hl])]
    rfl
  · rw [onCached_fst (o := o) (x := C.maps[i]'(hl ▸ hi)) _
      (by simp only; rw [List.getElem?_append_left hi, ho])
      (by simp only; rw [List.getElem?_append_left (hl ▸ hi), hx])]
    rfl

/-- C147: the enforcer that is made by moving answers as the one it was made from would have, and that
one can still be used: it answers from the rules. -/
theorem C147_move {C : CachedWorld} (hl : C.maps.length = C.world.objs.length) {i : Nat} {o : Obj}
    (ho : C.world.objs[i]? = some (some o)) (matcher : Str) (vals : List ReqVal) :
    let C' := (move i C).2
    (ask lib C.world.objs.length matcher vals C').1 = (ask lib i matcher vals C).1 ∧
      (ask lib i matcher vals C').1 =
        (World.onObj i (Enforcer.enforceWithMatcher lib matcher vals) C.world).1 := by
  have hi : i < C.world.objs.length := (List.getElem?_eq_some_iff.mp ho).1
  have hx : C.maps[i]? = some (C.maps[i]'(hl ▸ hi)) := List.getElem?_eq_getElem _
  intro C'
  have hC : C' = _ := congrArg Prod.snd (move_run ho hx)
  refine ⟨?_, ?_⟩
  · unfold ask
    rw [onCached_fst _ ho hx, hC]
    rw [onCached_fst (o := o) (x := C.maps[i]'(hl ▸ hi)) _ (by simp) (by simp [← hl])]
    rfl
  · rw [hC, ask_emptied ⟨(C.maps[i]'(hl ▸ hi)).2, by simp [List.getElem?_append_left, hl, hi]⟩]
    unfold World.onObj World.withObj
    simp only
    rw [List.getElem?_append_left hi, ho]
    simp only [view_objs]
    cases C.world.view o <;> rfl

/-! ## Between changes of the rules -/

omit [IterOrder] in
theorem putBack_self {α : Type} {l : List α} {q : Option Nat} {x : Option α}
    (h : deref l q = some x) : putBack l q x = (l, q) := by
  cases q with
  | none =>
    obtain rfl : none = x := Option.some.inj h
    rfl
  | some k =>
    simp only [deref, Option.map_eq_some_iff] at h
    obtain ⟨a, ha, rfl⟩ := h
    obtain ⟨hk, rfl⟩ := List.getElem?_eq_some_iff.mp ha
    simp [putBack]

omit [IterOrder] in
theorem deref_putBack_or {α : Type} {l : List α} {q q' : Option Nat} {x : Option α}
    (h : deref l q' = some x) (v : Option α) :
    deref (putBack l q v).1 q' = some x ∨ deref (putBack l q v).1 q' = some v := by
  by_cases hs : Unshared q q'
  · exact .inl (deref_putBack_other h hs v)
  · unfold Unshared at hs
    push Not at hs
    obtain ⟨k, rfl, rfl⟩ := hs
    cases v with
    | none => exact .inl h
    | some y =>
      have := deref_putBack ⟨x, h⟩ (some y)
      exact .inr this

omit [IterOrder] in
/-- What is left in the world by a method that changes the evaluator at most. -/
theorem store_eval {W : World} {i : Nat} {o : Obj} {ev : Option Evaluator}
    (h : W.view o = some { E with eval := ev }) (ev' : Option Evaluator) :
    W.store i o { E with eval := ev' } =
      { W with evals := (putBack W.evals o.eval ev').1,
               objs := W.objs.set i (some { o with eval := (putBack W.evals o.eval ev').2 }) } := by
  obtain ⟨v1, v2, v3, v4, v5, v6, v7, v8, v9, v10⟩ := view_eq h
  simp only at v1 v2 v3 v4 v5 v6 v7 v8 v9 v10
  obtain ⟨hm, hm'⟩ := List.getElem?_eq_some_iff.mp v1
  unfold World.store
  simp only [putBack_self v2, putBack_self v3, v5, v6, v7, v8, v9, v10]
  congr 1
  rw [← hm', List.set_getElem_self]

omit [IterOrder] in
theorem view_store {W : World} {o' : Obj} {ev ev' : Option Evaluator} {l : List Evaluator}
    {objs : List (Option Obj)}
    (h : W.view o' = some { E with eval := ev }) (hd : deref l o'.eval = some ev') :
    ({ W with evals := l, objs := objs } : World).view o' = some { E with eval := ev' } := by
  obtain ⟨v1, v2, v3, v4, v5, v6, v7, v8, v9, v10⟩ := view_eq h
  rw [view_of (W := { W with evals := l, objs := objs }) v1 v2 v3 hd]
  simp only at v5 v6 v7 v8 v9 v10
  simp only [← v5, ← v6, ← v7, ← v8, ← v9, ← v10]

/-- The enforcers of `F` are the enforcer `E` up to their evaluators, and the answers in their maps are
those `E` gives. -/
structure Family (lib : ExprLib) (E : Enforcer) (r p : Assertion) (i n : Nat) (C : CachedWorld) :
    Prop where
  len : C.maps.length = C.world.objs.length
  old : n ≤ C.maps.length
  good : ∀ j, (j = i ∨ n ≤ j) → j < C.maps.length → ∃ o x ev,
    C.world.objs[j]? = some (some o) ∧ C.maps[j]? = some x ∧
      C.world.view o = some { E with eval := ev } ∧
      Good lib E r p ⟨{ E with eval := ev }, x.1, x.2⟩

theorem family_on {α : Type} {i n j : Nat} {C : CachedWorld} (h : Family lib E r p i n C)
    (hj : j = i ∨ n ≤ j) {f : M CachedEnforcer α}
    (hf : ∀ c, Good lib E r p c → Good lib E r p (f c).2) :
    Family lib E r p i n (onCached j f C).2 := by
  by_cases hlt : j < C.maps.length
  · obtain ⟨o, x, ev, ho, hx, hv, hg⟩ := h.good j hj hlt
    have hg' := hf _ hg
    unfold onCached
    rw [ho, hx]
    simp only [hv]
    revert hg'
    generalize (f ⟨{ E with eval := ev }, x.1, x.2⟩).2 = c
    intro hg'
    obtain ⟨base, cache, on⟩ := c
    obtain ⟨ev', rfl : base = _, hC'⟩ := hg'.base
    simp only
    rw [store_eval hv ev']
    have hd : ∃ y, deref C.world.evals o.eval = some y := by
      obtain ⟨-, -, -, v4, -⟩ := view_eq hv
      exact ⟨_, v4⟩
    refine ⟨by simp [h.len], by simpa using h.old, ?_⟩
    intro k hk hkl
    simp only [List.length_set] at hkl
    by_cases hkj : j = k
    · subst hkj
      refine ⟨_, _, ev', List.getElem?_set_self (h.len ▸ hkl), List.getElem?_set_self hkl, ?_, hg'⟩
      obtain ⟨v1, v2, v3, v4, v5, v6, v7, v8, v9, v10⟩ := view_eq hv
      rw [view_of (W := { C.world with evals := (putBack C.world.evals o.eval ev').1, objs := _ })
        (o := { o with eval := (putBack C.world.evals o.eval ev').2 }) v1 v2 v3 (deref_putBack hd ev')]
      simp only at v5 v6 v7 v8 v9 v10
      simp only [← v5, ← v6, ← v7, ← v8, ← v9, ← v10]
    · obtain ⟨o', x', ev1, ho', hx', hv', hg1⟩ := h.good k hk hkl
      obtain ⟨-, -, -, v4, -⟩ := view_eq hv'
      simp only
      rw [List.getElem?_set_ne hkj, List.getElem?_set_ne hkj]
      rcases deref_putBack_or (q := o.eval) v4 ev' with hd' | hd'
      · exact ⟨o', x', ev1, ho', hx', view_store hv' hd', hg1⟩
      · exact ⟨o', x', ev', ho', hx', view_store hv' hd', ⟨⟨ev', rfl, hC'⟩, hg1.cache⟩⟩
  · have : C.maps[j]? = none := List.getElem?_eq_none_iff.mpr (Nat.le_of_not_lt hlt)
    unfold onCached
    rw [this]
    split
    · rename_i h1; cases h1
    · exact h

theorem good_empty {c : CachedEnforcer} (h : Good lib E r p c) (b : Bool) :
    Good lib E r p { c with cache := [], enableCache := b } :=
  ⟨h.base, by intro q b _ _ h; simp [UMap.get] at h⟩

theorem batch_keeps (hC : Consistent lib E r p) (hen : E.enabled = true)
    (he : E.model.find c!"e" c!"e" = some e) : ∀ (reqs : List (List ReqVal)) (c : CachedEnforcer),
    Good lib E r p c → (∀ vs ∈ reqs, SafeReq ([], vs) ∧ Plain E.model r p ([], vs)) →
      Good lib E r p (batchEnforce lib reqs c).2 := by
  intro reqs
  induction reqs with
  | nil => intro c hg _; exact hg
  | cons a reqs ih =>
    intro c hg hh
    have h2 := (good_step hC hen he hg (hh a (by simp)).1 (hh a (by simp)).2).2
    simp only [batchEnforce, enforce, M.bind_run]
    cases ha : enforceWithMatcher lib [] a c with
    | mk o s =>
      simp only [ha] at h2
      cases o with
      | throw x => exact h2
      | ub u => exact h2
      | ok b =>
        have := ih s h2 (fun q hq => hh q (by simp [hq]))
        cases hb : batchEnforce lib reqs s with
        | mk o s' => rw [hb] at this; cases o <;> simpa [hb] using this

/-- Operations on the enforcers `i` and `n`, `n + 1`, ... that change no rule and ask proper requests. -/
def Quiet (m : Model) (r p : Assertion) (i n : Nat) : Op → Prop
  | .copy j => j = i ∨ n ≤ j
  | .move j => j = i ∨ n ≤ j
  | .ask j matcher vals => (j = i ∨ n ≤ j) ∧ SafeReq (matcher, vals) ∧ Plain m r p (matcher, vals)
  | .batch j reqs => (j = i ∨ n ≤ j) ∧ ∀ vs ∈ reqs, SafeReq ([], vs) ∧ Plain m r p ([], vs)
  | .enable j _ => j = i ∨ n ≤ j
  | .invalidate j => j = i ∨ n ≤ j
  | .askMap _ _ => False
  | .users _ _ => False
  | .call _ _ => False

theorem family_new {i n j : Nat} {C : CachedWorld} (h : Family lib E r p i n C) (hj : j = i ∨ n ≤ j)
    {l : List (UMap Str Bool × Bool)} (hlen : l.length = C.maps.length) {o : Obj}
    {x : UMap Str Bool × Bool} (ho : C.world.objs[j]? = some (some o)) (hx : C.maps[j]? = some x)
    (hl : ∀ (k : Nat) (y : UMap Str Bool × Bool), C.maps[k]? = some y → ∃ y', l[k]? = some y' ∧ (y' = y ∨ y' = ([], y.2))) :
    Family lib E r p i n { world := { C.world with objs := C.world.objs ++ [some o] },
                           maps := l ++ [x] } := by
  refine ⟨by simp [h.len, hlen], by have := h.old; simp; omega, ?_⟩
  intro k hk hkl
  simp only [List.length_append, List.length_singleton] at hkl
  by_cases hlt : k < C.maps.length
  · obtain ⟨o', x', ev, ho', hx', hv, hg⟩ := h.good k hk hlt
    obtain ⟨y, hy, hor⟩ := hl k x' hx'
    refine ⟨o', y, ev, ?_, ?_, hv, ?_⟩
    · simp only
      rw [List.getElem?_append_left (h.len ▸ hlt), ho']
    · simp only
      rw [List.getElem?_append_left (hlen ▸ hlt), hy]
    · rcases hor with rfl | rfl
      · exact hg
      · exact good_empty hg _
  · obtain rfl : k = C.maps.length := by omega
    have hjl : j < C.maps.length := (List.getElem?_eq_some_iff.mp hx).1
    obtain ⟨o', x', ev, ho', hx', hv, hg⟩ := h.good j hj hjl
    obtain rfl : o = o' := by simpa [ho] using ho'
    obtain rfl : x = x' := by simpa [hx] using hx'
    exact ⟨o, x, ev, by simp [h.len], by simp [← hlen], hv, hg⟩

theorem family_step (hC : Consistent lib E r p) (hen : E.enabled = true)
    (he : E.model.find c!"e" c!"e" = some e) {i n : Nat} {C : CachedWorld}
    (h : Family lib E r p i n C) {op : Op} (ho : Quiet E.model r p i n op) :
    Family lib E r p i n (op.run lib C) := by
  cases op with
  | copy j =>
    simp only [Op.run]
    by_cases hlt : j < C.maps.length
    · obtain ⟨o, x, ev, h1, h2, -⟩ := h.good j ho hlt
      rw [copy_run h1 h2]
      exact family_new h ho rfl h1 h2 fun k y hy => ⟨y, hy, .inl rfl⟩
    · unfold CachedWorld.copy
      rw [List.getElem?_eq_none_iff.mpr (Nat.le_of_not_lt hlt)]
      exact h
  | move j =>
    simp only [Op.run]
    by_cases hlt : j < C.maps.length
    · obtain ⟨o, x, ev, h1, h2, -⟩ := h.good j ho hlt
      rw [move_run h1 h2]
      refine family_new h ho (by simp) h1 h2 fun k y hy => ?_
      by_cases hkj : j = k
      · subst hkj
        obtain rfl : x = y := by simpa [h2] using hy
        exact ⟨_, List.getElem?_set_self hlt, .inr rfl⟩
      · exact ⟨y, by rw [List.getElem?_set_ne hkj, hy], .inl rfl⟩
    · unfold CachedWorld.move
      rw [List.getElem?_eq_none_iff.mpr (Nat.le_of_not_lt hlt)]
      exact h
  | ask j m vs => exact family_on h ho.1 fun c hg => (good_step hC hen he hg ho.2.1 ho.2.2).2
  | batch j rs => exact family_on h ho.1 fun c hg => batch_keeps hC hen he rs c hg ho.2
  | enable j b => exact family_on h ho fun c hg => ⟨hg.base, hg.cache⟩
  | invalidate j => exact family_on h ho fun c hg => good_empty hg _
  | askMap j vs => exact ho.elim
  | users j perm => exact ho.elim
  | call j c => exact ho.elim

theorem family_runs (hC : Consistent lib E r p) (hen : E.enabled = true)
    (he : E.model.find c!"e" c!"e" = some e) {i n : Nat} : ∀ {ops : List Op} {C : CachedWorld},
    Family lib E r p i n C → (∀ op ∈ ops, Quiet E.model r p i n op) →
      Family lib E r p i n (runs lib ops C)
  | [], _, h, _ => h
  | op :: ops, _, h, ho =>
    family_runs hC hen he (ops := ops) (family_step hC hen he h (ho op List.mem_cons_self))
      fun o hm => ho o (List.mem_cons_of_mem _ hm)

/-- C147 (partial): as long as no rule is changed, a caching enforcer, its copies, the copies of these
and the ones they are moved to all answer like the enforcer that was there first, whatever was asked of
whichever of them. Missing: changes of the rules (`C147_fails`), requests as maps, and the requests
missing in C48. -/
theorem C147_family_partial {C : CachedWorld} (hl : C.maps.length = C.world.objs.length) {i : Nat}
    {o : Obj} (ho : C.world.objs[i]? = some (some o)) (hE : C.world.view o = some E)
    (hC : Consistent lib E r p) (hen : E.enabled = true) (he : E.model.find c!"e" c!"e" = some e)
    {b : Bool} (hx : C.maps[i]? = some ([], b)) {ops : List Op}
    (hops : ∀ op ∈ ops, Quiet E.model r p i C.world.objs.length op) {q : Str × List ReqVal}
    (hs : SafeReq q) (hq : Plain E.model r p q) :
    let C' := runs lib ops C
    ∀ j, j = i ∨ C.world.objs.length ≤ j → j < C'.world.objs.length →
      (ask lib j q.1 q.2 C').1 = (E.enforceWithMatcher lib q.1 q.2).1 := by
  intro C' j hj hlt
  have h0 : Family lib E r p i C.world.objs.length C := by
    refine ⟨hl, hl.ge, fun j hj hlt => ?_⟩
    obtain rfl : j = i := by omega
    exact ⟨o, _, E.eval, ho, hx, hE, ⟨⟨E.eval, rfl, hC⟩, by intro q b _ _ h; simp [UMap.get] at h⟩⟩
  have h := family_runs hC hen he h0 hops
  obtain ⟨o', x', ev, ho', hx', hv, hg⟩ := h.good j hj (h.len ▸ hlt)
  unfold ask
  rw [onCached_fst _ ho' hx', hv]
  exact (good_step hC hen he hg hs hq).1

/-! ## What fails -/

/-- A caching enforcer with one rule, asked once. -/
def first (lib : ExprLib) : CachedWorld :=
  (Op.ask 0 [] (alice.map .str)).run lib
    (CachedWorld.make (aclModel (.vector [alice])) none ⟨World.empty, []⟩).2

omit [IterOrder] in
/-- C147 is violated when the rules are changed: the rule is removed and the map emptied, both through
the enforcer that was copied; it denies the request, and its copy goes on granting it although it holds
the same rules. -/
theorem C147_fails :
    letI := insertionOrder
    let lib := stdLib noRx
    let q := alice.map ReqVal.str
    let C := runs lib [.copy 0, .call 0 (.edit (.remove false c!"p" alice)), .invalidate 0] (first lib)
    (ask lib 0 [] q C).1 = .ok false ∧ (ask lib 1 [] q C).1 = .ok true ∧
      (World.onObj 1 (Enforcer.enforceWithMatcher lib [] q) C.world).1 = .ok false := by
  refine ⟨?_, ?_, ?_⟩ <;> decide +kernel

/-- A new caching enforcer. -/
def newWorld : CachedWorld :=
  ⟨⟨[aclModel (.vector [alice])], [RM.new 10], [], [], [],
    [some ⟨0, 0, none, none, none, true, true, true, true⟩]⟩, [([], true)]⟩

/-- Non-vacuity of C147: an enforcer is copied, the copy asked and moved from, and the maps emptied and
switched off; the three enforcers answer alike. -/
example (j : Nat) :
    let q := [c!"alice", c!"data1", c!"read"].map ReqVal.str
    let ops := [Op.copy 0, .ask 1 [] q, .move 1, .enable 0 false, .batch 2 [q], .invalidate 1]
    j < (runs miniLib ops newWorld).world.objs.length →
      (ask miniLib j [] q (runs miniLib ops newWorld)).1 =
        ((acl [alice]).enforceWithMatcher miniLib [] q).1 := by
  intro q ops hlt
  have hq : SafeReq ([], q) ∧ Plain (acl [alice]).model rA (pA (.vector [alice])) ([], q) :=
    ⟨safe_strings (by decide), plain_acl _ _ rfl⟩
  have hops : ∀ op ∈ ops, Quiet (acl [alice]).model rA (pA (.vector [alice])) 0 1 op := by
    intro op hop
    simp only [ops, List.mem_cons, List.not_mem_nil, or_false] at hop
    rcases hop with rfl | rfl | rfl | rfl | rfl | rfl <;> simp [Quiet, hq]
  exact C147_family_partial (E := acl [alice]) (e := eA) (b := true) (i := 0) (C := newWorld) rfl rfl
    rfl (consistent_acl _ _) rfl rfl rfl hops hq.1 hq.2 j (by simp [newWorld]; omega) hlt

omit [IterOrder] in
/-- `newWorld` is the one with the new caching enforcer. -/
example : letI := insertionOrder
    (CachedWorld.make (aclModel (.vector [alice])) none ⟨World.empty, []⟩).2 =
      newWorld := rfl

omit [IterOrder] in
/-- The same, with answers: there are three enforcers, and the one that was moved from still answers. -/
example :
    letI := insertionOrder
    let lib := stdLib noRx
    let q := alice.map ReqVal.str
    let C := runs lib [.copy 0, .ask 1 [] q, .move 1, .enable 0 false, .batch 2 [q], .invalidate 1]
      (first lib)
    C.world.objs.length = 3 ∧ C.maps.map (fun x => (x.1.length, x.2)) = [(1, false), (0, true), (1, true)] ∧
      (ask lib 0 [] q C).1 = .ok true ∧ (ask lib 1 [] q C).1 = .ok true ∧
      (ask lib 2 [] q C).1 = .ok true ∧ (ask lib 3 [] q C).1 = .ub .nullDeref := by
  refine ⟨?_, ?_, ?_, ?_, ?_, ?_⟩ <;> decide +kernel

omit [IterOrder] in
/-- Non-vacuity of `C147_fresh`: the rule is removed through the copy, and the enforcer that was emptied
before denies; the copy, not emptied, grants. -/
example :
    letI := insertionOrder
    let lib := stdLib noRx
    let q := alice.map ReqVal.str
    let C := runs lib [.copy 0, .invalidate 0, .ask 1 [] q,
      .call 1 (.edit (.remove false c!"p" alice))] (first lib)
    (ask lib 0 [] q C).1 = .ok false ∧ (ask lib 1 [] q C).1 = .ok true := by
  refine ⟨?_, ?_⟩ <;> decide +kernel

end CachedWorldProps
end Casbin
