import Verif.Calls
import Verif.World
import Verif.LinkLemmas
import Verif.StableLemmas

/-!
# An enforcer that gets another role manager
-/

namespace Casbin

theorem UMap.ext_keys {K V : Type} [DecidableEq K] : ∀ {m m' : UMap K V}, m.keys = m'.keys →
    m.keys.Nodup → (∀ k, UMap.get m k = UMap.get m' k) → m = m'
  | [], [], _, _, _ => rfl
  | [], _ :: _, h, _, _ => by simp [UMap.keys] at h
  | _ :: _, [], h, _, _ => by simp [UMap.keys] at h
  | (k, v) :: m, (k', v') :: m', h, hn, hg => by
    obtain ⟨rfl, h2⟩ : k = k' ∧ UMap.keys m = UMap.keys m' := by simpa [UMap.keys] using h
    have hv := hg k
    simp only [UMap.get, if_true] at hv
    obtain rfl := Option.some.inj hv
    have hn' : k ∉ UMap.keys m ∧ (UMap.keys m).Nodup := by simpa [UMap.keys] using hn
    rw [UMap.ext_keys h2 hn'.2]
    intro x
    by_cases hx : k = x
    · subst hx
      have e1 : UMap.get m k = none := by
        rw [← Option.not_isSome_iff_eq_none, UMap.get_isSome_iff]; exact hn'.1
      have e2 : UMap.get m' k = none := by
        rw [← Option.not_isSome_iff_eq_none, UMap.get_isSome_iff, ← h2]; exact hn'.1
      rw [e1, e2]
    · have := hg x
      simpa [UMap.get, hx] using this

/-- An assertion without its role manager. -/
def Assertion.unlink (a : Assertion) : Assertion := { a with rm := none }

/-- Two models that differ at most in the role managers of the policy types `ts` of section `g`. -/
structure Model.Relinked (ts : List Str) (m m' : Model) : Prop where
  keys : UMap.keys m = UMap.keys m'
  other : ∀ s, s ≠ c!"g" → UMap.get m s = UMap.get m' s
  gkeys : (m.secMap c!"g").keys = (m'.secMap c!"g").keys
  same : ∀ t, (m.find c!"g" t).map Assertion.unlink = (m'.find c!"g" t).map Assertion.unlink
  done : ∀ t, t ∉ ts → m.find c!"g" t = m'.find c!"g" t

namespace Model.Relinked

theorem eq {m m' : Model} (h : Relinked [] m m') (hn : (UMap.keys m).Nodup)
    (hg : (m.secMap c!"g").keys.Nodup) : m = m' := by
  refine UMap.ext_keys h.keys hn fun s => ?_
  by_cases hs : s = c!"g"
  · subst hs
    have hmm : m.secMap c!"g" = m'.secMap c!"g" := by
      refine UMap.ext_keys h.gkeys hg fun t => ?_
      rw [Model.find_secMap, Model.find_secMap]
      exact h.done t (by simp)
    have hk : (UMap.get m c!"g").isSome = (UMap.get m' c!"g").isSome := by
      rw [Bool.eq_iff_iff, UMap.get_isSome_iff, UMap.get_isSome_iff, h.keys]
    unfold Model.secMap at hmm
    revert hmm hk
    cases UMap.get m c!"g" <;> cases UMap.get m' c!"g" <;> simp
  · exact h.other s hs

theorem keys_put_model {m : Model} {s t : Str} {a b : Assertion} (h : m.find s t = some a) :
    UMap.keys (m.put s t b) = UMap.keys m := by
  unfold Model.find at h
  unfold Model.put
  cases hm : UMap.get m s with
  | none => rw [hm] at h; cases h
  | some am =>
    have : s ∈ UMap.keys m := by rw [← UMap.get_isSome_iff, hm]; rfl
    simp only [UMap.keys_set, this, if_true]

theorem get_put_ne {m : Model} {s s' t : Str} (a : Assertion) (h : s ≠ s') :
    UMap.get (m.put s t a) s' = UMap.get m s' := by
  unfold Model.put
  cases UMap.get m s <;> simp [UMap.get_set, h]

theorem put {ts : List Str} {t : Str} {m m' : Model} (h : Relinked (t :: ts) m m') {a a' b : Assertion}
    (ha : m.find c!"g" t = some a) (ha' : m'.find c!"g" t = some a') :
    Relinked ts (m.put c!"g" t b) (m'.put c!"g" t b) where
  keys := by rw [keys_put_model ha, keys_put_model ha', h.keys]
  other s hs := by rw [get_put_ne _ (Ne.symm hs), get_put_ne _ (Ne.symm hs), h.other s hs]
  gkeys := by rw [Enforcer.keys_put ha, Enforcer.keys_put ha', h.gkeys]
  same t' := by
    rw [Model.find_put, Model.find_put]
    split
    · rfl
    · exact h.same t'
  done t' ht' := by
    rw [Model.find_put, Model.find_put]
    split
    · rfl
    · rename_i hne
      refine h.done t' ?_
      simp only [List.mem_cons, not_or]
      exact ⟨fun he => hne ⟨rfl, he.symm⟩, ht'⟩

theorem ensureSec {ts : List Str} {m m' : Model} (h : Relinked ts m m') :
    Relinked ts (m.ensureSec c!"g") (m'.ensureSec c!"g") := by
  have hh : m.has c!"g" = m'.has c!"g" := by
    unfold UMap.has
    rw [Bool.eq_iff_iff, UMap.get_isSome_iff, UMap.get_isSome_iff, h.keys]
  unfold Model.ensureSec
  rw [← hh]
  by_cases hb : m.has c!"g" = true
  · rw [if_pos hb, if_pos hb]; exact h
  · rw [if_neg hb, if_neg hb]
    have hf : ∀ (t : Str) (m : Model), Model.find (UMap.set m c!"g" []) c!"g" t = none := by
      intro t m; simp [Model.find, UMap.get_set_self]
    exact ⟨by rw [UMap.keys_set, UMap.keys_set, h.keys],
      fun s hs => by rw [UMap.get_set_ne _ _ (Ne.symm hs), UMap.get_set_ne _ _ (Ne.symm hs), h.other s hs],
      by simp [Model.secMap, UMap.get_set_self], fun t => by rw [hf, hf], fun t _ => by rw [hf, hf]⟩

end Model.Relinked

namespace Enforcer

variable [IterOrder]

/-- Building the links does not depend on where the role definitions pointed before. -/
theorem buildAll_relinked : ∀ {ts : List Str} {E : Enforcer} {m : Model}, E.model.Relinked ts m →
    (UMap.keys E.model).Nodup → (E.model.secMap c!"g").keys.Nodup →
    (buildAll ts { E with model := m }).1 = (buildAll ts E).1 ∧
      ((buildAll ts E).1 = .ok () → buildAll ts { E with model := m } = buildAll ts E)
  | [], E, m, h, hn, hg => by
    have := h.eq hn hg
    subst this
    exact ⟨rfl, fun _ => rfl⟩
  | t :: ts, E, m, h, hn, hg => by
    have hs := h.same t
    unfold buildAll
    simp only [M.bind_run, M.get_run]
    cases ha : E.model.find c!"g" t with
    | none =>
      rw [ha] at hs
      have ha' : m.find c!"g" t = none := by
        cases hm : m.find c!"g" t with
        | none => rfl
        | some _ => rw [hm] at hs; cases hs
      simp only [ha']
      exact ⟨rfl, fun h => by cases h⟩
    | some a =>
      rw [ha] at hs
      cases ha' : m.find c!"g" t with
      | none => rw [ha'] at hs; cases hs
      | some a' =>
        rw [ha'] at hs
        have hs : a.unlink = a'.unlink := Option.some.inj hs
        have e1 : a'.value = a.value := (congrArg Assertion.value hs).symm
        have e2 : a'.policy = a.policy := (congrArg Assertion.policy hs).symm
        have e3 : a'.key = a.key := (congrArg Assertion.key hs).symm
        have e4 : a'.tokens = a.tokens := (congrArg Assertion.tokens hs).symm
        simp only [M.bind_run, onModel, M.modify_run, e1, e2, e3, e4]
        set E1 : Enforcer := { E with model := E.model.put c!"g" t { a with rm := some E.rm } } with hE1
        have key : onRm E.rm (Assertion.buildLinks a.value .add a.policy.iterate)
              { E with model := m.put c!"g" t { a with rm := some E.rm } } =
            ((onRm E.rm (Assertion.buildLinks a.value .add a.policy.iterate) E1).1,
              { (onRm E.rm (Assertion.buildLinks a.value .add a.policy.iterate) E1).2 with
                model := m.put c!"g" t { a with rm := some E.rm } }) := rfl
        have hmod : (onRm E.rm (Assertion.buildLinks a.value .add a.policy.iterate) E1).2.model =
            E1.model := rfl
        rw [key]
        generalize hX : onRm E.rm (Assertion.buildLinks a.value .add a.policy.iterate) E1 = X at hmod
        rcases X with ⟨_ | _ | _, E2⟩
        · refine buildAll_relinked (ts := ts) (E := E2) ?_ ?_ ?_
          · simp only at hmod; rw [hmod]; exact h.put ha ha'
          · simp only at hmod
            rw [hmod, Model.Relinked.keys_put_model ha]; exact hn
          · simp only at hmod
            rw [hmod, keys_put ha]; exact hg
        · exact ⟨rfl, fun h => by cases h⟩
        · exact ⟨rfl, fun h => by cases h⟩

theorem buildRoleLinks_relinked {E : Enforcer} {m : Model}
    (h : E.model.Relinked (UMap.keys (E.model.secMap c!"g")) m) (hn : (UMap.keys E.model).Nodup)
    (hg : (E.model.secMap c!"g").keys.Nodup) (hok : (buildRoleLinks E).1 = .ok ()) :
    buildRoleLinks { E with model := m } = buildRoleLinks E := by
  have hr := h.ensureSec
  have hsec : ∀ m : Model, (m.ensureSec c!"g").secMap c!"g" = m.secMap c!"g" := by
    intro m
    unfold Model.ensureSec
    split
    · rfl
    · rename_i hb
      have : UMap.get m c!"g" = none := by
        unfold UMap.has at hb
        rw [← Option.not_isSome_iff_eq_none]; exact hb
      simp [Model.secMap, UMap.get_set_self, this]
  have hn' : (UMap.keys (E.model.ensureSec c!"g")).Nodup := by
    unfold Model.ensureSec
    split
    · exact hn
    · rename_i hb
      have : c!"g" ∉ UMap.keys E.model := by
        unfold UMap.has at hb
        rwa [← UMap.get_isSome_iff]
      rw [UMap.keys_set, if_neg this]
      exact List.nodup_append.mpr ⟨hn, by simp, by
        intro a ha b hb he
        simp only [List.mem_singleton] at hb
        subst hb; subst he
        exact this ha⟩
  have hit : (E.model.ensureSec c!"g").Relinked
      (IterOrder.iter (UMap.keys ((E.model.ensureSec c!"g").secMap c!"g"))) (m.ensureSec c!"g") :=
    ⟨hr.keys, hr.other, hr.gkeys, hr.same, fun t ht => hr.done t fun hm => ht (by
      rw [IterOrder.mem_iter, hsec]; exact hm)⟩
  unfold buildRoleLinks at hok ⊢
  simp only [M.bind_run, M.get_run] at hok ⊢
  have key : onRm E.rm (M.modify RM.clear) { E with model := m } =
      ((onRm E.rm (M.modify RM.clear) E).1, { (onRm E.rm (M.modify RM.clear) E).2 with model := m }) := rfl
  have hmod : (onRm E.rm (M.modify RM.clear) E).2.model = E.model := rfl
  rw [key]
  generalize onRm E.rm (M.modify RM.clear) E = X at hmod hok
  rcases X with ⟨_ | _ | _, E2⟩
  · simp only [onModel, M.modify_run] at hmod hok ⊢
    simp only [hmod] at hok ⊢
    rw [show UMap.keys ((m.ensureSec c!"g").secMap c!"g") =
      UMap.keys ((E.model.ensureSec c!"g").secMap c!"g") from hr.gkeys.symm]
    exact (buildAll_relinked (E := { E2 with model := E.model.ensureSec c!"g" }) hit hn'
      (by rw [hsec]; exact hg)).2 hok
  · cases hok
  · cases hok

/-- Before the links are built the role manager is cleared. -/
theorem buildRoleLinks_clear {E : Enforcer} {R N : RM} (hR : E.heap[E.rm]? = some R)
    (hN : N.clear = R.clear) : buildRoleLinks { E with heap := E.heap.set E.rm N } = buildRoleLinks E := by
  unfold buildRoleLinks
  simp only [M.bind_run, M.get_run]
  rw [onRm_run hR, onRm_run (E := { E with heap := E.heap.set E.rm N }) (rm := N) (getElem?_set_self' hR)]
  simp only [M.modify_run, List.set_set, hN]

end Enforcer

/-- One object gets a new place behind the first `L`, and an old one stands where it was. -/
def Embedding.swap (q L : Nat) (hq : q < L) (old : RM) : Embedding where
  ptr p := if p = q then L else if p < L then p else p + 1
  heap h := (h.take L).set q old ++ ((h[q]?).toList ++ h.drop L)
  Ok h := L ≤ h.length
  get h hh p := by
    have hl : ((h.take L).set q old).length = L := by simp [hh]
    have hq' : h[q]? = some h[q] := List.getElem?_eq_getElem (by omega)
    by_cases hp : p = q
    · subst hp
      rw [if_pos rfl, List.getElem?_append_right (by omega), hl, Nat.sub_self, hq']
      rfl
    · rw [if_neg hp]
      by_cases hp2 : p < L
      · rw [if_pos hp2, List.getElem?_append_left (by omega), List.getElem?_set_ne (Ne.symm hp),
          List.getElem?_take_of_lt hp2]
      · rw [if_neg hp2, List.getElem?_append_right (by omega), hl, hq']
        rw [show p + 1 - L = (p - L) + 1 by omega]
        simp only [Option.toList_some, List.singleton_append, List.getElem?_cons_succ, List.getElem?_drop]
        congr 1; omega
  set h hh p x hp := by
    have hl : ((h.take L).set q old).length = L := by simp [hh]
    have hq' : h[q]? = some h[q] := List.getElem?_eq_getElem (by omega)
    refine ⟨?_, by rw [List.length_set]; exact hh⟩
    by_cases hpq : p = q
    · subst hpq
      rw [if_pos rfl, List.getElem?_set_self hp, List.set_append_right _ _ (by omega), hl, Nat.sub_self,
        List.take_set, List.set_set, List.drop_set_of_lt hq, hq']
      rfl
    · rw [if_neg hpq, List.getElem?_set_ne hpq]
      by_cases hp2 : p < L
      · rw [if_pos hp2, List.set_append_left _ _ (by omega), List.take_set, List.set_comm _ _ hpq,
          List.drop_set_of_lt hp2]
      · rw [if_neg hp2, List.set_append_right _ _ (by omega), hl, hq',
          List.take_set, List.set_eq_of_length_le (l := List.take L h) (by simp; omega),
          show p + 1 - L = (p - L) + 1 by omega]
        simp only [Option.toList_some, List.singleton_append, List.set_cons_succ]
        rw [List.drop_set, if_neg hp2]

theorem Embedding.swap_grows (q L : Nat) (hq : q < L) (old : RM) : (swap q L hq old).Grows := by
  refine ⟨rfl, fun h hh x => ?_⟩
  have hh : L ≤ h.length := hh
  have hq' : h[q]? = some h[q] := List.getElem?_eq_getElem (by omega)
  refine ⟨?_, ?_, ?_⟩
  · simp only [swap]
    rw [List.take_append_of_le_length hh, List.drop_append_of_le_length hh,
      List.getElem?_append_left (by omega)]
    simp
  · simp only [swap]
    rw [if_neg (by omega), if_neg (by omega), hq']
    simp
    omega
  · show L ≤ (h ++ [x]).length
    simp; omega

end Casbin
