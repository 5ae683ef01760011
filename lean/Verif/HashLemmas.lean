import Verif.EndToEndLemmas
import Verif.ModelDef

/-! # Lemmas and specifications for C14 -/

namespace Casbin
namespace HashProps

open Enforcer DecisionProps Fixtures

/-- The conjunct `r.n == p.n`. -/
def conjunct (n : Str) : Expr := eqv (c!"r." ++ n) (c!"p." ++ n)

/-- The conjunction of such comparisons, as the parser nests it. -/
def conjTree (n : Str) (ns : List Str) : Expr := ns.foldl (fun e n => andE e (conjunct n)) (conjunct n)

/-- What is assumed of the operators. -/
structure SoundOps (lib : ExprLib) : Prop where
  eq : ∀ a b, lib.prim c!"==" [.str a, .str b] = Val.ofBool (decide (a = b))
  and : ∀ a b, (lib.prim c!"and" [a, b]).truthy = (a.truthy && b.truthy)

/-- Both sides of the comparison have a value. -/
def Bound (N : Naming) (n : Str) : Prop :=
  (∃ v, N.var (lower (c!"r." ++ n)) = some v) ∧ ∃ v, N.var (lower (c!"p." ++ n)) = some v

theorem knows_conjunct {N : Naming} {n : Str} (h : Bound N n) : N.Knows (conjunct n) := by
  obtain ⟨⟨v, h1⟩, w, h2⟩ := h
  simp only [conjunct, eqv, Naming.Knows, Naming.KnowsAll, and_true]
  exact ⟨⟨v, h1⟩, w, h2⟩

theorem denote_conjunct {lib : ExprLib} (hL : SoundOps lib) (heap : List RM) {N : Naming} {n : Str}
    (h : Bound N n) : ∃ v, denote lib heap N (conjunct n) = .ok v ∧
      (v.truthy = true ↔ N.var (lower (c!"r." ++ n)) = N.var (lower (c!"p." ++ n))) := by
  obtain ⟨⟨v, h1⟩, w, h2⟩ := h
  refine ⟨Val.ofBool (decide (v = w)), by simp only [conjunct, eqv, denote, denoteAll, h1, h2, Outcome.map_ok, hL.eq], ?_⟩
  rw [Val.truthy_ofBool, h1, h2]
  simp

theorem conj_fold {lib : ExprLib} (hL : SoundOps lib) (heap : List RM) {N : Naming} : ∀ (ns : List Str)
    (e : Expr) (v : Val), N.Knows e → denote lib heap N e = .ok v → (∀ n ∈ ns, Bound N n) →
    N.Knows (ns.foldl (fun e n => andE e (conjunct n)) e) ∧
    ∃ w, denote lib heap N (ns.foldl (fun e n => andE e (conjunct n)) e) = .ok w ∧
      (w.truthy = true ↔ v.truthy = true ∧
        ∀ n ∈ ns, N.var (lower (c!"r." ++ n)) = N.var (lower (c!"p." ++ n))) := by
  intro ns
  induction ns with
  | nil => intro e v hk hv _; exact ⟨hk, v, hv, by simp⟩
  | cons n ns ih =>
    intro e v hk hv hb
    have hbn := hb n (by simp)
    obtain ⟨u, hu, hut⟩ := denote_conjunct hL heap hbn
    obtain ⟨i1, w, i2, i3⟩ := ih (andE e (conjunct n)) (lib.prim c!"and" [v, u])
      (by simp only [andE, Naming.Knows, Naming.KnowsAll, and_true]; exact ⟨hk, knows_conjunct hbn⟩)
      (by simp only [andE, denote, denoteAll, hv, hu, Outcome.map_ok])
      (fun x hx => hb x (by simp [hx]))
    refine ⟨i1, w, i2, ?_⟩
    rw [i3, hL.and]
    simp only [Bool.and_eq_true, hut, List.forall_mem_cons, and_assoc]

theorem holds_conj {lib : ExprLib} (hL : SoundOps lib) (heap : List RM) {N : Naming} {text n : Str}
    {ns : List Str} (hp : lib.parse text = some (conjTree n ns)) (hb : ∀ m ∈ n :: ns, Bound N m)
    {q : Prop} [Decidable q] (hq : q ↔ ∀ m ∈ n :: ns, N.var (lower (c!"r." ++ m)) = N.var (lower (c!"p." ++ m))) :
    holds lib heap N text = .ok (decide q) := by
  obtain ⟨v, h1, h2⟩ := denote_conjunct hL heap (hb n (by simp))
  obtain ⟨i1, w, i2, i3⟩ := conj_fold hL heap ns (conjunct n) v (knows_conjunct (hb n (by simp))) h1
    fun m hm => hb m (by simp [hm])
  rw [holds_of_knows hp i1]
  have i2' : denote lib heap N (conjTree n ns) = .ok w := i2
  rw [i2', Outcome.map_ok]
  congr 1
  rw [Bool.eq_iff_iff, i3, decide_eq_true_iff, hq, List.forall_mem_cons, h2]

theorem tokenName_p (n : Str) : tokenName (c!"p_" ++ n) = n := by
  simp [tokenName, findChar]

/-- Names that differ also without regard to case stay different behind a prefix. -/
theorem nodup_prefix (pre : Str) {ns : List Str} (hn : (ns.map lower).Nodup) :
    (ns.map fun n => lower (pre ++ n)).Nodup := by
  have e : (ns.map fun n => lower (pre ++ n)) = (ns.map lower).map (lower pre ++ ·) := by
    simp [List.map_map, Function.comp_def, lower_append]
  rw [e]
  exact hn.map fun a b h => List.append_cancel_left h

theorem reqNames (ns : List Str) :
    (ns.map (c!"r_" ++ ·)).map reqName = ns.map fun n => lower (c!"r." ++ n) := by
  simp [reqName, reqRaw, List.map_map, Function.comp_def]

theorem var_r {ns vals : List Str} (hn : (ns.map lower).Nodup) (hl : vals.length = ns.length)
    (m : Model) (pt : List Str) (rule : Rule) (i : Nat) (hi : i < ns.length) :
    (naming m (ns.map (c!"r_" ++ ·)) pt vals rule).var (lower (c!"r." ++ ns[i])) =
      some (vals[i]'(by omega)) := by
  simp only [naming, bindings]
  rw [reqNames, UMap.get_append]
  have := get_zip_getElem (vals := vals) (nodup_prefix c!"r." hn) i (by simpa using hi) (by omega)
    (by simp [hl])
  simp only [List.getElem_map] at this
  rw [this]

theorem var_p {ns rule : List Str} (hn : (ns.map lower).Nodup) (hl : rule.length = ns.length)
    (m : Model) (rs vals : List Str) (i : Nat) (hi : i < ns.length) :
    (naming m (rs.map (c!"r_" ++ ·)) (ns.map (c!"p_" ++ ·)) vals rule).var (lower (c!"p." ++ ns[i])) =
      some (rule[i]'(by omega)) := by
  simp only [naming, bindings]
  have e : (ns.map (c!"p_" ++ ·)).map polName = ns.map fun n => lower (c!"p." ++ n) := by
    simp only [polName, polRaw, List.map_map, Function.comp_def, tokenName_p]
  rw [e, reqNames, UMap.get_append]
  have hnone : UMap.get ((rs.map fun n => lower (c!"r." ++ n)).zip vals) (lower (c!"p." ++ ns[i])) =
      none := by
    rw [UMap.get_eq_none_iff]
    intro h
    obtain ⟨kv, hkv, hk⟩ := List.mem_map.mp h
    have := (List.of_mem_zip hkv).1
    obtain ⟨x, _, hx⟩ := List.mem_map.mp this
    rw [hk] at hx
    simp [lower] at hx
  have := get_zip_getElem (vals := rule) (nodup_prefix c!"p." hn) i (by simpa using hi) (by omega)
    (by simp [hl])
  simp only [List.getElem_map] at this
  rw [hnone, this]

/-- A matcher that compares every column with the request value of the same name is satisfied
exactly by the rule equal to the request. -/
theorem verdict_conj {lib : ExprLib} (hL : SoundOps lib) (m : Model) (heap : List RM) {exp n : Str}
    {ms ns : List Str} (hp : lib.parse exp = some (conjTree n ms)) (hev : hasEval exp = false)
    (hperm : (n :: ms).Perm ns) (hnd : (ns.map lower).Nodup) {vals : List Str} {rule : Rule}
    (hv : vals.length = ns.length) (hr : rule.length = ns.length) :
    verdict lib m heap exp (ns.map (c!"r_" ++ ·)) (ns.map (c!"p_" ++ ·)) vals rule =
      .ok (decide (vals = rule)) := by
  simp only [verdict, ruleText, hev, Bool.false_eq_true, if_false, Outcome.ok_bind]
  refine holds_conj hL heap hp ?_ ?_
  · intro x hx
    obtain ⟨i, hi, rfl⟩ := List.getElem_of_mem (hperm.mem_iff.mp hx)
    exact ⟨⟨_, var_r hnd hv _ _ _ i hi⟩, _, var_p hnd hr _ _ _ i hi⟩
  · constructor
    · rintro rfl x hx
      obtain ⟨i, hi, rfl⟩ := List.getElem_of_mem (hperm.mem_iff.mp hx)
      rw [var_r hnd hv _ _ _ i hi, var_p hnd hr _ _ _ i hi]
    · intro h
      refine List.ext_getElem (by omega) ?_
      intro i h1 h2
      have hi : i < ns.length := by omega
      have := h ns[i] (hperm.mem_iff.mpr (List.getElem_mem hi))
      rw [var_r hnd hv _ _ _ i hi, var_p hnd hr _ _ _ i hi] at this
      simpa using this

end HashProps
end Casbin
