import Verif.WorldLemmas

/-!
# Enforcers that share nothing
-/

namespace Casbin
namespace World

/-- Enforcer object `o` is the enforcer `E`, whose role managers are at the positions `pos`. -/
structure Rep (W : World) (o : Obj) (E : Enforcer) (pos : List Nat) : Prop where
  nodup : pos.Nodup
  bound : ∀ p ∈ pos, p < W.rms.length
  len : pos.length = E.heap.length
  same : ∀ k p : Nat, pos[k]? = some p → W.rms[p]? = E.heap[k]?
  view : W.view o = some (E.moveTo (place pos W.rms.length) W.rms)
  closed : E.Closed
  blind : E.AdBlind

/-- Two enforcer objects hold nothing in common. -/
structure Apart (a b : Obj) : Prop where
  model : a.model ≠ b.model
  adapter : Unshared a.adapter b.adapter
  watcher : Unshared a.watcher b.watcher
  eval : Unshared a.eval b.eval

theorem Apart.symm {a b : Obj} (h : Apart a b) : Apart b a :=
  ⟨h.model.symm, h.adapter.symm, h.watcher.symm, h.eval.symm⟩

/-- The enforcer objects are the enforcers `Es` and share nothing. -/
structure Inv (W : World) (Es : List (Option Enforcer)) (pos : Nat → List Nat) : Prop where
  len : W.objs.length = Es.length
  rep : ∀ (i : Nat) (o : Obj), W.objs[i]? = some (some o) →
    ∃ E, Es[i]? = some (some E) ∧ Rep W o E (pos i)
  dead : ∀ i : Nat, W.objs[i]? = some none → Es[i]? = some none
  apart : ∀ (i j : Nat) (a b : Obj), i ≠ j → W.objs[i]? = some (some a) →
    W.objs[j]? = some (some b) → Apart a b ∧ (pos i).Disjoint (pos j)

theorem place_congr {pos : List Nat} {p : Nat} (hp : p < pos.length) (m n : Nat) :
    place pos m p = place pos n p := by
  unfold place
  rw [List.getElem?_eq_getElem hp]

/-- `o` sees in `W'` what it saw in `W`, except for the role managers. -/
def Frame (W W' : World) (o : Obj) : Prop :=
  W'.view o = (W.view o).map fun E => { E with heap := W'.rms }

theorem view_eq {W : World} {o : Obj} {E : Enforcer} (h : W.view o = some E) :
    W.models[o.model]? = some E.model ∧ deref W.adapters o.adapter = some E.adapter ∧
      deref W.watchers o.watcher = some E.watcher ∧ deref W.evals o.eval = some E.eval ∧
      E.heap = W.rms ∧ E.rm = o.rm ∧ E.enabled = o.enabled ∧ E.autoSave = o.autoSave ∧
      E.autoBuild = o.autoBuild ∧ E.autoNotify = o.autoNotify := by
  unfold view at h
  split at h
  · rename_i m a w ev h1 h2 h3 h4
    obtain rfl := Option.some.inj h
    exact ⟨h1, h2, h3, h4, rfl, rfl, rfl, rfl, rfl, rfl⟩
  · cases h

theorem view_of {W : World} {o : Obj} {m : Model} {a : Option Adapter} {w : Option Watcher}
    {ev : Option Evaluator} (h1 : W.models[o.model]? = some m)
    (h2 : deref W.adapters o.adapter = some a) (h3 : deref W.watchers o.watcher = some w)
    (h4 : deref W.evals o.eval = some ev) : W.view o = some
      { model := m, heap := W.rms, rm := o.rm, adapter := a, watcher := w, eval := ev,
        enabled := o.enabled, autoSave := o.autoSave, autoBuild := o.autoBuild,
        autoNotify := o.autoNotify } := by
  unfold view
  rw [h1, h2, h3, h4]

theorem frame_of {W W' : World} {o : Obj} {E : Enforcer} (h : W.view o = some E)
    (h1 : W'.models[o.model]? = some E.model) (h2 : deref W'.adapters o.adapter = some E.adapter)
    (h3 : deref W'.watchers o.watcher = some E.watcher) (h4 : deref W'.evals o.eval = some E.eval) :
    Frame W W' o := by
  unfold Frame
  rw [h, view_of h1 h2 h3 h4]
  obtain ⟨-, -, -, -, -, e1, e2, e3, e4, e5⟩ := view_eq h
  simp only [Option.map_some, ← e1, ← e2, ← e3, ← e4, ← e5]

theorem Rep.frame {W W' : World} {o : Obj} {E : Enforcer} {pos : List Nat} (h : Rep W o E pos)
    (hf : Frame W W' o) (hl : W.rms.length ≤ W'.rms.length)
    (hs : ∀ p ∈ pos, W'.rms[p]? = W.rms[p]?) : Rep W' o E pos where
  nodup := h.nodup
  bound p hp := Nat.lt_of_lt_of_le (h.bound p hp) hl
  len := h.len
  same k p hk := by rw [hs p (List.mem_of_getElem? hk)]; exact h.same k p hk
  view := by
    rw [show W'.view o = _ from hf, h.view, Option.map_some]
    rw [h.closed.moveTo_congr (fun p hp => place_congr (by rw [h.len]; exact hp) _ W'.rms.length)]
    rfl
  closed := h.closed
  blind := h.blind

variable {W W' : World} {Es : List (Option Enforcer)} {pos : Nat → List Nat}

/-- One enforcer object is changed, or made, without touching the others. -/
theorem Inv.update (h : Inv W Es pos) {i : Nat} (hi : i < W.objs.length) {o' : Obj} {E' : Enforcer}
    {pos' : List Nat} (ho : W'.objs = W.objs.set i (some o')) (hl : W.rms.length ≤ W'.rms.length)
    (hr : Rep W' o' E' pos')
    (hother : ∀ (j : Nat) (b : Obj) (E : Enforcer), j ≠ i → W.objs[j]? = some (some b) →
      Rep W b E (pos j) → Frame W W' b ∧ (∀ p ∈ pos j, W'.rms[p]? = W.rms[p]?) ∧ Apart o' b ∧
        pos'.Disjoint (pos j)) :
    Inv W' (Es.set i (some E')) (Function.update pos i pos') where
  len := by rw [ho, List.length_set, List.length_set, h.len]
  rep j b hb := by
    rw [ho] at hb
    by_cases hj : j = i
    · subst hj
      rw [List.getElem?_set_self hi] at hb
      obtain rfl : o' = b := by simpa using hb
      exact ⟨E', by rw [List.getElem?_set_self (h.len ▸ hi)], by simpa using hr⟩
    · rw [List.getElem?_set_ne (Ne.symm hj)] at hb
      obtain ⟨E, hE, hR⟩ := h.rep j b hb
      obtain ⟨h1, h2, -, -⟩ := hother j b E hj hb hR
      exact ⟨E, by rw [List.getElem?_set_ne (Ne.symm hj), hE],
        by rw [Function.update_of_ne hj]; exact hR.frame h1 hl h2⟩
  dead j hj := by
    rw [ho] at hj
    by_cases hji : j = i
    · subst hji
      rw [List.getElem?_set_self hi] at hj
      simp at hj
    · rw [List.getElem?_set_ne (Ne.symm hji)] at hj ⊢
      exact h.dead j hj
  apart j k a b hjk ha hb := by
    rw [ho] at ha hb
    by_cases hj : j = i
    · subst hj
      rw [List.getElem?_set_self hi] at ha
      obtain rfl : o' = a := by simpa using ha
      rw [List.getElem?_set_ne hjk] at hb
      obtain ⟨E, -, hR⟩ := h.rep k b hb
      obtain ⟨-, -, h3, h4⟩ := hother k b E (Ne.symm hjk) hb hR
      rw [Function.update_self, Function.update_of_ne (Ne.symm hjk)]
      exact ⟨h3, h4⟩
    · rw [List.getElem?_set_ne (Ne.symm hj)] at ha
      by_cases hk : k = i
      · subst hk
        rw [List.getElem?_set_self hi] at hb
        obtain rfl : o' = b := by simpa using hb
        obtain ⟨E, -, hR⟩ := h.rep j a ha
        obtain ⟨-, -, h3, h4⟩ := hother j a E hj ha hR
        rw [Function.update_self, Function.update_of_ne hj]
        exact ⟨h3.symm, fun _ hx hy => h4 hy hx⟩
      · rw [List.getElem?_set_ne (Ne.symm hk)] at hb
        rw [Function.update_of_ne hj, Function.update_of_ne hk]
        exact h.apart j k a b hjk ha hb

/-- Room for a new enforcer. -/
theorem Inv.room (h : Inv W Es pos) :
    Inv { W with objs := W.objs ++ [none] } (Es ++ [none]) pos where
  len := by simp [h.len]
  rep i o ho := by
    have ho' : (W.objs ++ [none])[i]? = some (some o) := ho
    have hi : i < W.objs.length := by
      by_contra hi
      rw [List.getElem?_append_right (by omega)] at ho'
      cases hd : i - W.objs.length <;> simp [hd] at ho'
    rw [List.getElem?_append_left hi] at ho'
    obtain ⟨E, hE, hR⟩ := h.rep i o ho'
    exact ⟨E, by rw [List.getElem?_append_left (h.len ▸ hi), hE],
      ⟨hR.nodup, hR.bound, hR.len, hR.same, hR.view, hR.closed, hR.blind⟩⟩
  dead i hi := by
    have hi' : (W.objs ++ [none])[i]? = some none := hi
    by_cases hlt : i < W.objs.length
    · rw [List.getElem?_append_left hlt] at hi'
      rw [List.getElem?_append_left (h.len ▸ hlt)]
      exact h.dead i hi'
    · rw [List.getElem?_append_right (by omega)] at hi'
      rw [List.getElem?_append_right (by rw [← h.len]; omega), ← h.len]
      cases hd : i - W.objs.length <;> simp [hd] at hi' ⊢
  apart i j a b hij ha hb := by
    have lt : ∀ {i : Nat} {o : Obj}, (W.objs ++ [none])[i]? = some (some o) →
        W.objs[i]? = some (some o) := by
      intro i o ho
      have hi : i < W.objs.length := by
        by_contra hi
        rw [List.getElem?_append_right (by omega)] at ho
        cases hd : i - W.objs.length <;> simp [hd] at ho
      rwa [List.getElem?_append_left hi] at ho
    exact h.apart i j a b hij (lt ha) (lt hb)

/-- An enforcer goes away. -/
theorem Inv.kill (h : Inv W Es pos) {i : Nat} (hi : i < W.objs.length) :
    Inv { W with objs := W.objs.set i none } (Es.set i none) pos where
  len := by simp [h.len]
  rep j o ho := by
    have ho' : (W.objs.set i none)[j]? = some (some o) := ho
    by_cases hj : j = i
    · subst hj
      rw [List.getElem?_set_self hi] at ho'
      simp at ho'
    · rw [List.getElem?_set_ne (Ne.symm hj)] at ho' ⊢
      obtain ⟨E, hE, hR⟩ := h.rep j o ho'
      exact ⟨E, hE, ⟨hR.nodup, hR.bound, hR.len, hR.same, hR.view, hR.closed, hR.blind⟩⟩
  dead j hj := by
    have hj' : (W.objs.set i none)[j]? = some none := hj
    by_cases hji : j = i
    · subst hji
      rw [List.getElem?_set_self (h.len ▸ hi)]
    · rw [List.getElem?_set_ne (Ne.symm hji)] at hj' ⊢
      exact h.dead j hj'
  apart j k a b hjk ha hb := by
    have un : ∀ {j : Nat} {o : Obj}, (W.objs.set i none)[j]? = some (some o) →
        W.objs[j]? = some (some o) := by
      intro j o ho
      by_cases hj : j = i
      · subst hj
        rw [List.getElem?_set_self hi] at ho
        simp at ho
      · rwa [List.getElem?_set_ne (Ne.symm hj)] at ho
    exact h.apart j k a b hjk (un ha) (un hb)

/-- What is written back is seen, by the enforcer it was written for and by no other. -/
theorem view_store {o : Obj} {E : Enforcer} (h : W.view o = some E) {i : Nat} (E' : Enforcer) :
    ∃ o', (W.store i o E').objs = W.objs.set i (some o') ∧ (W.store i o E').view o' = some E' ∧
      ∀ b E2, W.view b = some E2 → Apart o b → Frame W (W.store i o E') b ∧ Apart o' b := by
  obtain ⟨h1, h2, h3, h4, -⟩ := view_eq h
  refine ⟨_, rfl, ?_, ?_⟩
  · have hlt := (List.getElem?_eq_some_iff.mp h1).1
    rw [view_of (m := E'.model) (a := E'.adapter) (w := E'.watcher) (ev := E'.eval)]
    · rfl
    · exact List.getElem?_set_self hlt
    · exact deref_putBack ⟨_, h2⟩ _
    · exact deref_putBack ⟨_, h3⟩ _
    · exact deref_putBack ⟨_, h4⟩ _
  · intro b E2 hb ha
    obtain ⟨k1, k2, k3, k4, -⟩ := view_eq hb
    refine ⟨frame_of hb ?_ ?_ ?_ ?_, ha.model, ?_, ?_, ?_⟩
    · exact (List.getElem?_set_ne ha.model).trans k1
    · exact deref_putBack_other k2 ha.adapter _
    · exact deref_putBack_other k3 ha.watcher _
    · exact deref_putBack_other k4 ha.eval _
    · exact unshared_putBack k2 ha.adapter _
    · exact unshared_putBack k3 ha.watcher _
    · exact unshared_putBack k4 ha.eval _

theorem Rep.move_eq {o : Obj} {E : Enforcer} {p : List Nat} (h : Rep W o E p) :
    E.moveTo (place p W.rms.length) W.rms = E.move (.overlay W.rms p h.nodup h.bound) := by
  have h1 : spread W.rms p E.heap = W.rms := spread_same _ _ _ h.same
  have h2 : E.heap.drop p.length = [] := by rw [h.len]; simp
  show _ = E.moveTo (place p W.rms.length) (spread W.rms p E.heap ++ E.heap.drop p.length)
  rw [h1, h2, List.append_nil]

theorem Inv.onObj (h : Inv W Es pos) {α : Type} {f : M Enforcer α} (hf : Enforcer.Indep f) {i : Nat}
    {E : Enforcer} (hi : Es[i]? = some (some E)) :
    (World.onObj i f W).1 = (f E).1 ∧
      Inv (World.onObj i f W).2 (Es.set i (some (f E).2)) pos := by
  have hlt : i < W.objs.length := h.len ▸ (List.getElem?_eq_some_iff.mp hi).1
  obtain ⟨o, ho⟩ : ∃ o, W.objs[i]? = some (some o) := by
    rcases ho : W.objs[i]? with _ | _ | o
    · rw [List.getElem?_eq_getElem hlt] at ho; cases ho
    · have := h.dead i ho
      rw [hi] at this
      cases this
    · exact ⟨o, rfl⟩
  obtain ⟨E0, hE0, hR⟩ := h.rep i o ho
  obtain rfl : E = E0 := by rw [hi] at hE0; simpa using hE0
  set ε := Embedding.overlay W.rms (pos i) hR.nodup hR.bound with hε
  obtain ⟨hs, -, hok⟩ := hf ε E ⟨hR.blind, show (pos i).length ≤ _ by rw [hR.len]⟩
  obtain ⟨c1, c2, c3⟩ := hf.closed hR.closed hR.blind
  have hv : W.view o = some (E.move ε) := by rw [hR.view, hR.move_eq]
  have hrun : World.onObj i f W = ((f E).1, W.store i o ((f E).2.move ε)) := by
    unfold World.onObj withObj
    rw [ho]
    simp only
    rw [hv]
    simp only
    rw [hs]
  rw [hrun]
  refine ⟨rfl, ?_⟩
  obtain ⟨o', ho', hv', hoth⟩ := view_store hv (i := i) ((f E).2.move ε)
  have hheap : (W.store i o ((f E).2.move ε)).rms = spread W.rms (pos i) (f E).2.heap := by
    show spread W.rms (pos i) (f E).2.heap ++ (f E).2.heap.drop (pos i).length = _
    rw [hR.len, ← c3]
    simp
  have hlen : (W.store i o ((f E).2.move ε)).rms.length = W.rms.length := by
    rw [hheap, length_spread]
  have := h.update (W' := W.store i o ((f E).2.move ε)) (E' := (f E).2) (pos' := pos i) hlt ho'
    (by rw [hlen]) ?_ ?_
  · rwa [Function.update_eq_self] at this
  · refine ⟨hR.nodup, fun p hp => by rw [hlen]; exact hR.bound p hp, by rw [c3, hR.len], ?_, ?_, c1, c2⟩
    · intro k p hk
      rw [hheap, spread_at _ _ _ hR.nodup hR.bound (by rw [c3, hR.len]) hk]
    · rw [hv', hlen]
      rfl
  · intro j b E2 hj hb hRb
    obtain ⟨ha, hd⟩ := h.apart i j o b (Ne.symm hj) ho hb
    obtain ⟨hfr, hap⟩ := hoth b _ hRb.view ha
    refine ⟨hfr, ?_, hap, hd⟩
    intro p hp
    rw [hheap, spread_other _ _ _ (fun hp' => hd hp' hp)]

theorem Inv.live (h : Inv W Es pos) {i : Nat} {E : Enforcer} (hi : Es[i]? = some (some E)) :
    ∃ o, W.objs[i]? = some (some o) ∧ Rep W o E (pos i) := by
  have hlt : i < W.objs.length := h.len ▸ (List.getElem?_eq_some_iff.mp hi).1
  rcases ho : W.objs[i]? with _ | _ | o
  · rw [List.getElem?_eq_getElem hlt] at ho; cases ho
  · have := h.dead i ho
    rw [hi] at this
    cases this
  · obtain ⟨E0, hE0, hR⟩ := h.rep i o ho
    obtain rfl : E = E0 := by rw [hi] at hE0; simpa using hE0
    exact ⟨o, rfl, hR⟩

theorem getElem?_append_some {α : Type} {l : List α} {i : Nat} {x : α} (h : l[i]? = some x)
    (l' : List α) : (l ++ l')[i]? = some x := by
  rw [List.getElem?_append_left (List.getElem?_eq_some_iff.mp h).1, h]

/-- The world with further models, adapters, watchers and role managers. -/
def more (W : World) (ms : List Model) (as : List Adapter) (ws : List Watcher) (rs : List RM) : World :=
  { W with models := W.models ++ ms, adapters := W.adapters ++ as, watchers := W.watchers ++ ws,
           rms := W.rms ++ rs }

theorem frame_more {o : Obj} {E : Enforcer} (h : W.view o = some E) (ms : List Model)
    (as : List Adapter) (ws : List Watcher) (rs : List RM) (os : List (Option Obj)) :
    Frame W { W.more ms as ws rs with objs := os } o := by
  obtain ⟨h1, h2, h3, h4, -⟩ := view_eq h
  exact frame_of h (getElem?_append_some h1 _) (deref_append h2 _) (deref_append h3 _) h4

/-- An enforcer object gets new members. -/
theorem Inv.renew (h : Inv W Es pos) {i : Nat} (hi : i < W.objs.length) (ms : List Model)
    (as : List Adapter) (ws : List Watcher) (rs : List RM) {o' : Obj} {E' : Enforcer} {pos' : List Nat}
    (hr : Rep { W.more ms as ws rs with objs := W.objs.set i (some o') } o' E' pos')
    (hother : ∀ (j : Nat) (b : Obj) (E : Enforcer), j ≠ i → W.objs[j]? = some (some b) →
      Rep W b E (pos j) → Apart o' b ∧ pos'.Disjoint (pos j)) :
    Inv { W.more ms as ws rs with objs := W.objs.set i (some o') } (Es.set i (some E'))
      (Function.update pos i pos') := by
  refine h.update hi rfl (by simp [more]) hr ?_
  intro j b E hj hb hR
  obtain ⟨h1, h2⟩ := hother j b E hj hb hR
  refine ⟨frame_more hR.view _ _ _ _ _, ?_, h1, h2⟩
  intro p hp
  exact List.getElem?_append_left (hR.bound p hp)

/-- A pointer to a model that has just been made. -/
theorem model_new {b : Obj} {E : Enforcer} (h : W.view b = some E) : W.models.length ≠ b.model := by
  obtain ⟨h1, -⟩ := view_eq h
  have := (List.getElem?_eq_some_iff.mp h1).1
  omega

/-- `SetModel` with a new model, on an enforcer object whose adapter is not shared. -/
theorem Inv.fresh (h : Inv W Es pos) {i : Nat} (hi : i < W.objs.length) {m : Model} (hm : m.Unused)
    (as : List Adapter) {ai : Option Nat} {a : Option Adapter}
    (ha : deref (W.adapters ++ as) ai = some a) (hb : ∀ x, a = some x → x.Blind)
    (hun : ∀ (j : Nat) (b : Obj) (E : Enforcer), j ≠ i → W.objs[j]? = some (some b) →
      Rep W b E (pos j) → Unshared ai b.adapter) (p0 : List Nat) (H0 : List RM)
    (hn : p0.Nodup) (hbd : ∀ p ∈ p0, p < W.rms.length) (hl : p0.length = H0.length)
    (hs : ∀ k p : Nat, p0[k]? = some p → W.rms[p]? = H0[k]?)
    (hdj : ∀ (j : Nat) (b : Obj) (E : Enforcer), j ≠ i → W.objs[j]? = some (some b) →
      Rep W b E (pos j) → p0.Disjoint (pos j)) :
    Inv { W.more [m] as [] [RM.new 10] with objs := W.objs.set i (some
        { model := W.models.length, rm := W.rms.length, adapter := ai, watcher := none, eval := none,
          enabled := true, autoSave := true, autoBuild := true, autoNotify := true }) }
      (Es.set i (some
        { model := m, heap := H0 ++ [RM.new 10], rm := H0.length, adapter := a, watcher := none,
          eval := none, enabled := true, autoSave := true, autoBuild := true, autoNotify := true }))
      (Function.update pos i (p0 ++ [W.rms.length])) := by
  refine h.renew hi _ _ _ _ ?_ ?_
  · constructor
    · refine List.nodup_append.mpr ⟨hn, List.nodup_singleton _, ?_⟩
      intro p hp q hq e
      obtain rfl : q = W.rms.length := by simpa using hq
      exact absurd (hbd p hp) (by omega)
    · intro p hp
      show p < (W.rms ++ [RM.new 10]).length
      rw [List.length_append, List.length_singleton]
      rcases List.mem_append.mp hp with hp | hp
      · have := hbd p hp; omega
      · obtain rfl : p = W.rms.length := by simpa using hp
        omega
    · simp [hl]
    · intro k p hk
      show (W.rms ++ [RM.new 10])[p]? = (H0 ++ [RM.new 10])[k]?
      by_cases hkl : k < p0.length
      · rw [List.getElem?_append_left hkl] at hk
        rw [List.getElem?_append_left (hbd p (List.mem_of_getElem? hk)),
          List.getElem?_append_left (hl ▸ hkl), hs k p hk]
      · rw [List.getElem?_append_right (by omega)] at hk
        have hk0 : k - p0.length = 0 := by
          by_contra hk0
          rw [List.getElem?_eq_none (by simp; omega)] at hk
          cases hk
        rw [hk0] at hk
        obtain rfl : W.rms.length = p := by simpa using hk
        rw [List.getElem?_append_right (Nat.le_refl _), List.getElem?_append_right (by omega),
          ← hl, hk0, Nat.sub_self]
    · rw [view_of (m := m) (a := a) (w := none) (ev := none)]
      · simp only [Enforcer.moveTo, hm.move, Option.map_none, Option.some.injEq, Enforcer.mk.injEq,
          true_and, and_true]
        unfold place
        rw [← hl, List.getElem?_append_right (Nat.le_refl _)]
        simp
      · show (W.models ++ [m])[W.models.length]? = some m
        simp
      · exact ha
      · rfl
      · rfl
    · simp [Enforcer.Closed, Enforcer.move, Embedding.gap, hm.move]
    · exact hb
  · intro j b E hj hb hR
    refine ⟨⟨model_new hR.view, hun j b E hj hb hR, unshared_none _, unshared_none _⟩, ?_⟩
    intro p hp hp'
    rcases List.mem_append.mp hp with hp | hp
    · exact hdj j b E hj hb hR hp hp'
    · obtain rfl : p = W.rms.length := by simpa using hp
      exact absurd (hR.bound _ hp') (by omega)

variable [IterOrder]

theorem Inv.call (hk : IterOrder.ByKeys ‹_›) (lib : ExprLib) (h : Inv W Es pos) {c : Method}
    (hc : c.Plain) {i : Nat} {E : Enforcer} (hi : Es[i]? = some (some E)) :
    (World.call lib i c W).1 = (c.run lib E).1 ∧
      ∃ pos', Inv (World.call lib i c W).2 (Es.set i (some (c.run lib E).2)) pos' := by
  obtain ⟨o, ho, hR⟩ := h.live hi
  have hlt : i < W.objs.length := h.len ▸ (List.getElem?_eq_some_iff.mp hi).1
  obtain ⟨v1, v2, v3, v4, v5, v6, v7, v8, v9, v10⟩ := view_eq hR.view
  have hother : ∀ (j : Nat) (b : Obj) (E : Enforcer), j ≠ i → W.objs[j]? = some (some b) →
      Rep W b E (pos j) → Apart o b ∧ (pos i).Disjoint (pos j) := fun j b E hj hb _ =>
    h.apart i j o b (Ne.symm hj) ho hb
  have stay : c.Stays → World.call lib i c = World.onObj i (c.run lib) →
      (World.call lib i c W).1 = (c.run lib E).1 ∧
        ∃ pos', Inv (World.call lib i c W).2 (Es.set i (some (c.run lib E).2)) pos' := by
    intro hs he
    rw [he]
    obtain ⟨h1, h2⟩ := h.onObj (Method.indep hk lib hc hs) hi
    exact ⟨h1, _, h2⟩
  cases c with
  | setModel m =>
    have hrun : World.call lib i (.setModel m) W = (.ok .done,
        { W.more [m] [] [] [RM.new 10] with objs := W.objs.set i (some
          { model := W.models.length, rm := W.rms.length, adapter := o.adapter, watcher := none,
            eval := none, enabled := true, autoSave := true, autoBuild := true,
            autoNotify := true }) }) := by
      simp only [World.call, World.setModel, World.setObj, World.initObj, withObj, M.bind_run,
        M.get_run, M.modify_run, ho, M.pure_run, List.getElem?_set_self hlt, more, List.append_nil,
        List.set_set]
    rw [hrun]
    refine ⟨rfl, Function.update pos i (pos i ++ [W.rms.length]), ?_⟩
    exact h.fresh hlt hc [] (ai := o.adapter) (a := E.adapter) (by rw [List.append_nil]; exact v2)
      hR.blind (fun j b E' hj hb hR' => (hother j b E' hj hb hR').1.adapter) (pos i) E.heap hR.nodup
      hR.bound hR.len hR.same (fun j b E' hj hb hR' => (hother j b E' hj hb hR').2)
  | setAdapter a =>
    have hrun : World.call lib i (.setAdapter a) W = (.ok .done,
        { W.more [] [a] [] [] with objs := W.objs.set i (some
          { o with adapter := some W.adapters.length }) }) := by
      simp only [World.call, World.setAdapter, World.setObj, withObj, M.bind_run,
        M.get_run, M.modify_run, ho, M.pure_run, more, List.append_nil]
    rw [hrun]
    refine ⟨rfl, _, h.renew hlt _ _ _ _ (pos' := pos i) ?_ ?_⟩
    · refine ⟨hR.nodup, by simpa [more] using hR.bound, hR.len, (show ∀ k p : Nat,
        (pos i)[k]? = some p → (W.rms ++ [])[p]? = E.heap[k]? by simpa using hR.same), ?_,
        (Method.closed_run hk lib hc hR.closed hR.blind).1, ?_⟩
      · rw [view_of (m := (E.model.move (place (pos i) W.rms.length))) (a := some a) (w := E.watcher)
          (ev := E.eval.map (Evaluator.move (place (pos i) W.rms.length)))]
        · simp only [more, List.append_nil]
          rw [← v6, ← v7, ← v8, ← v9, ← v10]
          rfl
        · exact getElem?_append_some v1 _
        · simp [more, deref]
        · exact deref_append v3 _
        · exact v4
      · intro b hb
        obtain rfl : a = b := Option.some.inj hb
        exact hc
    · intro j b E' hj hb hR'
      obtain ⟨⟨a1, a2, a3, a4⟩, d⟩ := hother j b E' hj hb hR'
      exact ⟨⟨a1, unshared_new (view_eq hR'.view).2.1, a3, a4⟩, d⟩
  | setWatcher w =>
    have hrun : World.call lib i (.setWatcher w) W = (.ok .done,
        { W.more [] [] [w] [] with objs := W.objs.set i (some
          { o with watcher := some W.watchers.length }) }) := by
      simp only [World.call, World.setWatcher, World.setObj, withObj, M.bind_run,
        M.get_run, M.modify_run, ho, M.pure_run, more, List.append_nil]
    rw [hrun]
    refine ⟨rfl, _, h.renew hlt _ _ _ _ (pos' := pos i) ?_ ?_⟩
    · refine ⟨hR.nodup, by simpa [more] using hR.bound, hR.len, (show ∀ k p : Nat,
        (pos i)[k]? = some p → (W.rms ++ [])[p]? = E.heap[k]? by simpa using hR.same), ?_,
        (Method.closed_run hk lib hc hR.closed hR.blind).1, hR.blind⟩
      rw [view_of (m := (E.model.move (place (pos i) W.rms.length))) (a := E.adapter) (w := some w)
        (ev := E.eval.map (Evaluator.move (place (pos i) W.rms.length)))]
      · simp only [more, List.append_nil]
        rw [← v6, ← v7, ← v8, ← v9, ← v10]
        rfl
      · exact getElem?_append_some v1 _
      · exact deref_append v2 _
      · simp [more, deref]
      · exact v4
    · intro j b E' hj hb hR'
      obtain ⟨⟨a1, a2, a3, a4⟩, d⟩ := hother j b E' hj hb hR'
      exact ⟨⟨a1, a2, unshared_new (view_eq hR'.view).2.2.1, a4⟩, d⟩
  | _ => exact stay trivial rfl

/-- A new enforcer with a new model and a new adapter. -/
theorem Inv.make (h : Inv W Es pos) {m : Model} (hm : m.Unused) {a : Option Adapter}
    (ha : ∀ x, a = some x → x.Blind) :
    (World.make m a W).1 = (Enforcer.construct m a).1 ∧
      ∃ pos', Inv (World.make m a W).2
        (Es ++ [match (Enforcer.construct m a).1 with
          | .ok _ => some (Enforcer.construct m a).2
          | _ => none]) pos' := by
  set E0 : Enforcer :=
    { model := m, heap := [RM.new 10], rm := 0, adapter := a, watcher := none, eval := none,
      enabled := true, autoSave := true, autoBuild := true, autoNotify := true } with hE0
  set W0 : World := { W.more [m] a.toList [] [RM.new 10] with objs := W.objs ++ [some
    { model := W.models.length, rm := W.rms.length, adapter := a.map fun _ => W.adapters.length,
      watcher := none, eval := none, enabled := true, autoSave := true, autoBuild := true,
      autoNotify := true }] } with hW0
  have hinv : Inv W0 (Es ++ [some E0]) (Function.update pos W.objs.length [W.rms.length]) := by
    have := h.room.fresh (i := W.objs.length) (m := m) (by simp) hm a.toList
      (ai := a.map fun _ => W.adapters.length) (a := a) (by cases a <;> simp [deref]) ha
      (fun j b E _ _ hR => ?_) [] [] List.nodup_nil (by simp) rfl (by simp)
      (fun _ _ _ _ _ _ p hp => by simp at hp)
    · simp only [List.nil_append] at this
      have e1 : (W.objs ++ [none]).set W.objs.length (some
          { model := W.models.length, rm := W.rms.length, adapter := a.map fun _ => W.adapters.length,
            watcher := none, eval := none, enabled := true, autoSave := true, autoBuild := true,
            autoNotify := true : Obj }) = W0.objs := by
        rw [List.set_append_right _ _ (Nat.le_refl _)]
        simp [hW0]
      have e2 : (Es ++ [none]).set W.objs.length (some E0) = Es ++ [some E0] := by
        rw [h.len, List.set_append_right _ _ (Nat.le_refl _)]
        simp
      rw [e1, show ([] : List RM).length = 0 from rfl, ← hE0, e2] at this
      exact this
    · cases a with
      | none => exact unshared_none _
      | some x => exact unshared_new (view_eq hR.view).2.1
  have hEn : (Es ++ [some E0])[W.objs.length]? = some (some E0) := by rw [h.len]; simp
  have hn0 : W.objs.length < W0.objs.length := by simp [hW0]
  have hset : ∀ x, (Es ++ [some E0]).set W.objs.length x = Es ++ [x] := by
    intro x
    rw [h.len, List.set_append_right _ _ (Nat.le_refl _)]
    simp
  cases a with
  | none =>
    have h1 : World.make m none W = (.ok (), W0) := by
      simp [World.make, M.bind_run, World.newObj, World.initObj, withObj, hW0, more]
    have h2 : Enforcer.construct m none = (.ok (), E0) := rfl
    rw [h1, h2]
    exact ⟨rfl, _, hinv⟩
  | some ad =>
    by_cases hv : ad.isValid = true
    · have h1 : World.make m (some ad) W = (match (World.onObj W.objs.length Enforcer.loadPolicy W0).1 with
          | .ok _ => World.onObj W.objs.length Enforcer.loadPolicy W0
          | o => (o, { (World.onObj W.objs.length Enforcer.loadPolicy W0).2 with
              objs := (World.onObj W.objs.length Enforcer.loadPolicy W0).2.objs.set W.objs.length none })) := by
        simp [World.make, M.bind_run, World.newObj, World.initObj, withObj, hW0, more, hv]
        generalize World.onObj W.objs.length Enforcer.loadPolicy _ = r
        rcases r with ⟨_ | _ | _, _⟩ <;> rfl
      have h2 : Enforcer.construct m (some ad) = Enforcer.loadPolicy E0 := by
        unfold Enforcer.construct
        simp only [M.bind_run, Enforcer.initObject, M.modify_run, hv, if_true]
        rfl
      obtain ⟨k1, k2⟩ := hinv.onObj Enforcer.indep_loadPolicy hEn
      rw [h1, h2, ← k1]
      rcases ho : World.onObj W.objs.length Enforcer.loadPolicy W0 with ⟨o, W3⟩
      rw [ho, hset] at k2
      cases o with
      | ok u => exact ⟨rfl, _, k2⟩
      | throw e =>
        refine ⟨rfl, Function.update pos W.objs.length [W.rms.length], ?_⟩
        have := k2.kill (i := W.objs.length) (by
          rw [k2.len, h.len]; simp)
        rw [h.len, List.set_append_right _ _ (Nat.le_refl _), ← h.len] at this
        simpa using this
      | ub e =>
        refine ⟨rfl, Function.update pos W.objs.length [W.rms.length], ?_⟩
        have := k2.kill (i := W.objs.length) (by
          rw [k2.len, h.len]; simp)
        rw [h.len, List.set_append_right _ _ (Nat.le_refl _), ← h.len] at this
        simpa using this
    · have h1 : World.make m (some ad) W = (.ok (), W0) := by
        simp [World.make, M.bind_run, World.newObj, World.initObj, withObj, hW0, more, hv]
      have h2 : Enforcer.construct m (some ad) = (.ok (), E0) := by
        unfold Enforcer.construct
        simp only [M.bind_run, Enforcer.initObject, M.modify_run, hv]
        rfl
      rw [h1, h2]
      exact ⟨rfl, _, hinv⟩

end World
end Casbin
