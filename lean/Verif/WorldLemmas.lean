import Verif.World

/-!
# Helper lemmas about several enforcers
-/

namespace Casbin

/-! ## Pointers that lead somewhere -/

theorem UMap.mapVals_congr {K V W : Type} {f : V → V} {g h : V → W} (hgh : ∀ v, f v = v → g v = h v) :
    ∀ {m : UMap K V}, UMap.mapVals f m = m → UMap.mapVals g m = UMap.mapVals h m
  | [], _ => rfl
  | (k, v) :: m, hm => by
    simp only [UMap.mapVals, List.map_cons, List.cons.injEq, Prod.mk.injEq, true_and] at hm ⊢
    exact ⟨hgh v hm.1, UMap.mapVals_congr hgh hm.2⟩

theorem Option.map_congr_fix {ρ ρ1 ρ2 : Nat → Nat} (h : ∀ p, ρ p = p → ρ1 p = ρ2 p) {o : Option Nat}
    (ho : o.map ρ = o) : o.map ρ1 = o.map ρ2 := by
  cases o with
  | none => rfl
  | some p => simp only [Option.map_some, Option.some.injEq] at ho ⊢; exact h p ho

theorem Assertion.move_congr {ρ ρ1 ρ2 : Nat → Nat} (h : ∀ p, ρ p = p → ρ1 p = ρ2 p) {a : Assertion}
    (ha : a.move ρ = a) : a.move ρ1 = a.move ρ2 := by
  have : a.rm.map ρ = a.rm := congrArg Assertion.rm ha
  simp only [Assertion.move, Option.map_congr_fix h this]

theorem Model.move_congr {ρ ρ1 ρ2 : Nat → Nat} (h : ∀ p, ρ p = p → ρ1 p = ρ2 p) {m : Model}
    (hm : m.move ρ = m) : m.move ρ1 = m.move ρ2 :=
  UMap.mapVals_congr (fun _ hv => UMap.mapVals_congr (fun _ ha => Assertion.move_congr h ha) hv) hm

theorem FunRef.move_congr {ρ ρ1 ρ2 : Nat → Nat} (h : ∀ p, ρ p = p → ρ1 p = ρ2 p) {f : FunRef}
    (hf : f.move ρ = f) : f.move ρ1 = f.move ρ2 := by
  cases f with
  | builtin b => rfl
  | g rm n =>
    simp only [FunRef.move, FunRef.g.injEq, and_true] at hf ⊢
    exact Option.map_congr_fix h hf

theorem Evaluator.move_congr {ρ ρ1 ρ2 : Nat → Nat} (h : ∀ p, ρ p = p → ρ1 p = ρ2 p) {ev : Evaluator}
    (he : ev.move ρ = ev) : ev.move ρ1 = ev.move ρ2 := by
  have h1 : ev.funs.mapVals (FunRef.move ρ) = ev.funs := congrArg Evaluator.funs he
  simp only [Evaluator.move, UMap.mapVals_congr (fun _ hf => FunRef.move_congr h hf) h1]

/-- The same heap, with the pointers that lead out of it moved. -/
def Embedding.gap (n : Nat) : Embedding where
  ptr p := if p < n then p else p + 1
  heap h := h
  Ok h := h.length = n
  get h hh p := by
    split
    · rfl
    · rw [List.getElem?_eq_none (by omega), List.getElem?_eq_none (by omega)]
  set h hh p x hp := by
    refine ⟨?_, by simpa using hh⟩
    rw [if_pos (by omega)]

namespace Enforcer

/-- No pointer of the enforcer leads out of its heap. -/
def Closed (E : Enforcer) : Prop := E.move (.gap E.heap.length) = E

/-- The enforcer with its pointers moved along `ρ` and another heap. -/
def moveTo (ρ : Nat → Nat) (H : List RM) (E : Enforcer) : Enforcer :=
  { E with model := E.model.move ρ, heap := H, rm := ρ E.rm, eval := E.eval.map (Evaluator.move ρ) }

theorem Closed.moveTo_congr {E : Enforcer} (hE : E.Closed) {ρ1 ρ2 : Nat → Nat}
    (h : ∀ p, p < E.heap.length → ρ1 p = ρ2 p) (H : List RM) : E.moveTo ρ1 H = E.moveTo ρ2 H := by
  have h' : ∀ p, (Embedding.gap E.heap.length).ptr p = p → ρ1 p = ρ2 p := by
    intro p hp
    refine h p ?_
    by_contra hlt
    simp only [Embedding.gap, if_neg hlt] at hp
    omega
  have h1 : E.model.move _ = E.model := congrArg Enforcer.model hE
  have h2 : _ = E.rm := congrArg Enforcer.rm hE
  have h3 : E.eval.map (Evaluator.move _) = E.eval := congrArg Enforcer.eval hE
  have h4 : E.eval.map (Evaluator.move ρ1) = E.eval.map (Evaluator.move ρ2) := by
    cases he : E.eval with
    | none => rfl
    | some ev =>
      rw [he] at h3
      simp only [Option.map_some, Option.some.injEq] at h3 ⊢
      exact Evaluator.move_congr h' h3
  simp only [moveTo, Model.move_congr h' h1, h' _ h2, h4]

theorem Indep.closed {α : Type} {f : M Enforcer α} (hf : Indep f) {E : Enforcer} (hE : E.Closed)
    (ha : E.AdBlind) :
    (f E).2.Closed ∧ (f E).2.AdBlind ∧ (f E).2.heap.length = E.heap.length := by
  obtain ⟨h1, h2, h3⟩ := hf (.gap E.heap.length) E ⟨ha, rfl⟩
  have h3' : (f E).2.heap.length = E.heap.length := h3
  refine ⟨?_, h2, h3'⟩
  rw [show E.move (.gap E.heap.length) = E from hE] at h1
  unfold Enforcer.Closed
  rw [h3']
  exact (congrArg Prod.snd h1).symm

end Enforcer

variable [IterOrder]

theorem Method.closed_run (hk : IterOrder.ByKeys ‹_›) (lib : ExprLib) {c : Method} (hc : c.Plain)
    {E : Enforcer} (hE : E.Closed) (ha : E.AdBlind) :
    (c.run lib E).2.Closed ∧ (c.run lib E).2.AdBlind := by
  by_cases hs : c.Stays
  · obtain ⟨h1, h2, -⟩ := (Method.indep hk lib hc hs).closed hE ha
    exact ⟨h1, h2⟩
  · cases c with
    | setModel m =>
      rw [Method.setModel_run]
      refine ⟨?_, ha⟩
      have hm : ∀ ρ, m.move ρ = m := fun ρ => Model.Unused.move hc ρ
      simp [Enforcer.Closed, Enforcer.move, Embedding.gap, hm]
    | _ => exact absurd trivial hs

/-! ## A heap spread over a larger one -/

/-- Write the objects at the positions. -/
def spread (H : List RM) : List Nat → List RM → List RM
  | p :: ps, x :: xs => (spread H ps xs).set p x
  | _, _ => H

omit [IterOrder] in
theorem length_spread (H : List RM) : ∀ (ps : List Nat) (xs : List RM),
    (spread H ps xs).length = H.length
  | [], xs => by simp [spread]
  | p :: ps, [] => rfl
  | p :: ps, x :: xs => by simp [spread, length_spread H ps xs]

omit [IterOrder] in
theorem spread_other (H : List RM) {q : Nat} : ∀ (ps : List Nat) (xs : List RM), q ∉ ps →
    (spread H ps xs)[q]? = H[q]?
  | [], xs, _ => by simp [spread]
  | p :: ps, [], _ => rfl
  | p :: ps, x :: xs, h => by
    simp only [List.mem_cons, not_or] at h
    simp only [spread]
    rw [List.getElem?_set_ne (Ne.symm h.1), spread_other H ps xs h.2]

omit [IterOrder] in
theorem spread_at (H : List RM) : ∀ (ps : List Nat) (xs : List RM), ps.Nodup →
    (∀ p ∈ ps, p < H.length) → ps.length ≤ xs.length → ∀ {k p : Nat}, ps[k]? = some p →
    (spread H ps xs)[p]? = xs[k]?
  | [], xs, _, _, _, k, p, hp => by simp at hp
  | q :: ps, [], _, _, hl, _, _, _ => by simp at hl
  | q :: ps, x :: xs, hn, hb, hl, 0, p, hp => by
    simp only [List.getElem?_cons_zero, Option.some.injEq] at hp
    subst hp
    simp only [spread, List.getElem?_cons_zero]
    rw [List.getElem?_set_self (by rw [length_spread]; exact hb q List.mem_cons_self)]
  | q :: ps, x :: xs, hn, hb, hl, k + 1, p, hp => by
    simp only [List.getElem?_cons_succ] at hp ⊢
    obtain ⟨hq, hn⟩ := List.nodup_cons.mp hn
    have hmem : p ∈ ps := List.mem_of_getElem? hp
    have hne : q ≠ p := fun h => hq (h ▸ hmem)
    simp only [spread]
    rw [List.getElem?_set_ne hne]
    exact spread_at H ps xs hn (fun p hp => hb p (List.mem_cons_of_mem _ hp)) (by simpa using hl) hp

omit [IterOrder] in
theorem spread_set (H : List RM) : ∀ (ps : List Nat) (xs : List RM), ps.Nodup →
    ps.length ≤ xs.length → ∀ (k p : Nat) (x : RM), ps[k]? = some p →
    spread H ps (xs.set k x) = (spread H ps xs).set p x
  | [], xs, _, _, k, p, x, hp => by simp at hp
  | q :: ps, [], _, hl, _, _, _, _ => by simp at hl
  | q :: ps, y :: xs, hn, hl, 0, p, x, hp => by
    simp only [List.getElem?_cons_zero, Option.some.injEq] at hp
    subst hp
    simp [spread]
  | q :: ps, y :: xs, hn, hl, k + 1, p, x, hp => by
    simp only [List.getElem?_cons_succ] at hp
    obtain ⟨hq, hn⟩ := List.nodup_cons.mp hn
    have hmem : p ∈ ps := List.mem_of_getElem? hp
    have hne : p ≠ q := fun h => hq (h ▸ hmem)
    simp only [List.set_cons_succ, spread]
    rw [spread_set H ps xs hn (by simpa using hl) k p x hp, List.set_comm _ _ hne]

omit [IterOrder] in
theorem spread_drop (H : List RM) : ∀ (ps : List Nat) (xs : List RM) (k : Nat) (x : RM),
    ps.length ≤ k → spread H ps (xs.set k x) = spread H ps xs
  | [], xs, _, _, _ => by simp [spread]
  | q :: ps, [], _, _, _ => by simp
  | q :: ps, y :: xs, 0, _, h => by simp at h
  | q :: ps, y :: xs, k + 1, x, h => by
    simp only [List.set_cons_succ, spread]
    rw [spread_drop H ps xs k x (by simpa using h)]

omit [IterOrder] in
theorem spread_append (H : List RM) : ∀ (ps : List Nat) (xs ys : List RM), ps.length ≤ xs.length →
    spread H ps (xs ++ ys) = spread H ps xs
  | [], xs, ys, _ => by simp [spread]
  | q :: ps, [], ys, h => by simp at h
  | q :: ps, y :: xs, ys, h => by
    simp only [List.cons_append, spread]
    rw [spread_append H ps xs ys (by simpa using h)]

omit [IterOrder] in
theorem spread_same (H : List RM) : ∀ (ps : List Nat) (xs : List RM),
    (∀ k p : Nat, ps[k]? = some p → H[p]? = xs[k]?) → spread H ps xs = H
  | [], xs, _ => by simp [spread]
  | p :: ps, [], _ => rfl
  | p :: ps, x :: xs, h => by
    simp only [spread]
    rw [spread_same H ps xs fun k q hk => by simpa using h (k + 1) q (by simpa using hk)]
    have h0 := h 0 p rfl
    simp only [List.getElem?_cons_zero] at h0
    obtain ⟨hp, rfl⟩ := List.getElem?_eq_some_iff.mp h0
    exact List.set_getElem_self hp

/-- Where position `p` is. -/
def place (pos : List Nat) (n p : Nat) : Nat :=
  match pos[p]? with
  | some q => q
  | none => n + (p - pos.length)

/-- The first objects at the positions `pos` of `H`, later ones behind `H`. -/
def Embedding.overlay (H : List RM) (pos : List Nat) (hn : pos.Nodup) (hb : ∀ p ∈ pos, p < H.length) :
    Embedding where
  ptr := place pos H.length
  heap h := spread H pos h ++ h.drop pos.length
  Ok h := pos.length ≤ h.length
  get h hh p := by
    unfold place
    cases hp : pos[p]? with
    | some q =>
      simp only
      have hq : q < H.length := hb q (List.mem_of_getElem? hp)
      rw [List.getElem?_append_left (by rw [length_spread]; exact hq), spread_at H pos h hn hb hh hp]
    | none =>
      simp only
      have hp' : pos.length ≤ p := List.getElem?_eq_none_iff.mp hp
      rw [List.getElem?_append_right (by rw [length_spread]; omega), length_spread, List.getElem?_drop]
      congr 1
      omega
  set h hh p x hp := by
    refine ⟨?_, by simpa using hh⟩
    unfold place
    cases hq : pos[p]? with
    | some q =>
      simp only
      have hql : q < H.length := hb q (List.mem_of_getElem? hq)
      have hpl : p < pos.length := (List.getElem?_eq_some_iff.mp hq).1
      rw [spread_set H pos h hn hh p q x hq, List.drop_set, if_pos hpl,
        List.set_append_left _ _ (by rw [length_spread]; exact hql)]
    | none =>
      simp only
      have hp' : pos.length ≤ p := List.getElem?_eq_none_iff.mp hq
      rw [spread_drop H pos h p x hp', List.drop_set, if_neg (by omega),
        List.set_append_right _ _ (by rw [length_spread]; omega), length_spread]
      congr 2
      omega

/-! ## Lists of objects -/

omit [IterOrder] in
theorem deref_putBack {α : Type} {l : List α} {p : Option Nat} (hp : ∃ x, deref l p = some x)
    (v : Option α) : deref (putBack l p v).1 (putBack l p v).2 = some v := by
  obtain ⟨x, hx⟩ := hp
  cases p with
  | none => cases v <;> simp [putBack, deref]
  | some k =>
    cases v with
    | none => simp [putBack, deref]
    | some y =>
      have hk : k < l.length := by
        simp only [deref, Option.map_eq_some_iff] at hx
        obtain ⟨a, ha, -⟩ := hx
        exact (List.getElem?_eq_some_iff.mp ha).1
      simp [putBack, deref, List.getElem?_set_self hk]

/-- Not the same object. -/
def Unshared (p q : Option Nat) : Prop := ∀ k, p = some k → q ≠ some k

omit [IterOrder] in
theorem deref_putBack_other {α : Type} {l : List α} {p q : Option Nat} {x : Option α}
    (hx : deref l q = some x) (h : Unshared p q) (v : Option α) :
    deref (putBack l p v).1 q = some x := by
  cases q with
  | none => exact hx
  | some j =>
    simp only [deref, Option.map_eq_some_iff] at hx ⊢
    obtain ⟨a, ha, rfl⟩ := hx
    refine ⟨a, ?_, rfl⟩
    cases p with
    | none =>
      cases v with
      | none => exact ha
      | some y =>
        simp only [putBack]
        rw [List.getElem?_append_left (List.getElem?_eq_some_iff.mp ha).1, ha]
    | some k =>
      cases v with
      | none => exact ha
      | some y =>
        have hne : k ≠ j := fun e => h k rfl (by rw [e])
        simp only [putBack]
        rw [List.getElem?_set_ne hne, ha]

omit [IterOrder] in
theorem unshared_putBack {α : Type} {l : List α} {p q : Option Nat} {x : Option α}
    (hx : deref l q = some x) (h : Unshared p q) (v : Option α) : Unshared (putBack l p v).2 q := by
  intro k hk hq
  subst hq
  cases p with
  | none =>
    cases v with
    | none => simp [putBack] at hk
    | some y =>
      simp only [putBack, Option.some.injEq] at hk
      subst hk
      simp [deref] at hx
  | some j =>
    cases v with
    | none => simp [putBack] at hk
    | some y =>
      simp only [putBack, Option.some.injEq] at hk
      exact h j rfl (by rw [hk])

omit [IterOrder] in
theorem deref_append {α : Type} {l : List α} {q : Option Nat} {x : Option α} (hx : deref l q = some x)
    (l' : List α) : deref (l ++ l') q = some x := by
  cases q with
  | none => exact hx
  | some j =>
    simp only [deref, Option.map_eq_some_iff] at hx ⊢
    obtain ⟨a, ha, rfl⟩ := hx
    exact ⟨a, by rw [List.getElem?_append_left (List.getElem?_eq_some_iff.mp ha).1, ha], rfl⟩

omit [IterOrder] in
theorem Unshared.symm {p q : Option Nat} (h : Unshared p q) : Unshared q p := fun k hq hp => h k hp hq

omit [IterOrder] in
theorem unshared_none (q : Option Nat) : Unshared none q := fun _ h => by cases h

omit [IterOrder] in
theorem unshared_new {α : Type} {l : List α} {q : Option Nat} {x : Option α}
    (hx : deref l q = some x) : Unshared (some l.length) q := by
  intro k hk hq
  subst hq
  obtain rfl := Option.some.inj hk
  simp [deref] at hx

end Casbin
