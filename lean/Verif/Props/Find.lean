import Verif.Find
import Mathlib.Data.List.Nodup
import Mathlib.Data.Finset.Card

/-!
# C116: `FindAllOccurences`
-/

namespace Casbin
namespace FindProps

/-! ## C116 -/

/-- `pat` stands in `data` at position `i`. -/
def At (data pat : Str) (i : Nat) : Prop := ∃ a b, data = a ++ pat ++ b ∧ a.length = i

theorem at_iff {data pat : Str} {i : Nat} : At data pat i ↔ i ≤ data.length ∧ pat <+: data.drop i := by
  constructor
  · rintro ⟨a, b, rfl, rfl⟩
    exact ⟨by simp, ⟨b, by simp⟩⟩
  · rintro ⟨hi, b, hb⟩
    refine ⟨data.take i, b, ?_, by simpa using hi⟩
    rw [List.append_assoc, hb, List.take_append_drop]

theorem findFrom_some {data pat : Str} {pos i : Nat} (h : findFrom data pat pos = some i) :
    pos ≤ i ∧ At data pat i ∧ (∀ j, pos ≤ j → j < i → ¬ At data pat j) ∧
      i + pat.length ≤ data.length := by
  unfold findFrom at h
  split at h
  · rename_i hp
    obtain ⟨k, hk, rfl⟩ := Option.map_eq_some_iff.mp h
    have hle := findSub_le hk
    rw [List.length_drop] at hle
    refine ⟨by omega, at_iff.mpr ⟨by omega, ?_⟩, ?_, by omega⟩
    · have := findSub_some hk
      refine ⟨(data.drop pos).drop (k + pat.length), ?_⟩
      rw [show data.drop (pos + k) = (data.drop pos).drop k by rw [List.drop_drop]]
      generalize data.drop pos = D at this
      have h2 := (List.take_append_drop k D).trans this
      rw [List.append_assoc] at h2
      exact (List.append_cancel_left h2).symm
    · intro j h1 h2 hj
      refine findSub_first hk (j - pos) (by omega) ?_
      rw [List.drop_drop, show pos + (j - pos) = j by omega]
      exact (at_iff.mp hj).2
  · cases h

theorem findFrom_none {data pat : Str} {pos : Nat} (h : findFrom data pat pos = none) :
    ∀ j, pos ≤ j → ¬ At data pat j := by
  intro j hj hat
  obtain ⟨h1, h2⟩ := at_iff.mp hat
  unfold findFrom at h
  rw [if_pos (by omega), Option.map_eq_none_iff, findSub_none] at h
  refine h (h2.isInfix.trans ?_)
  rw [show j = pos + (j - pos) by omega, ← List.drop_drop]
  exact (List.drop_suffix _ _).isInfix

/-- `l` are the occurrences of `pat` from `pos` on found one after the other, each time the leftmost
one that begins after the end of the one before. -/
structure Leftmost (data pat : Str) (pos : Nat) (l : List Nat) : Prop where
  found : ∀ i ∈ l, pos ≤ i ∧ At data pat i
  apart : l.Pairwise fun i j => i + pat.length ≤ j
  cover : ∀ j, pos ≤ j → At data pat j → ∃ i ∈ l, i ≤ j ∧ j < i + pat.length

theorem loop_leftmost {data pat : Str} (hp : pat ≠ []) : ∀ (fuel pos : Nat),
    data.length < fuel + pos → ∃ l, findAllLoop data pat fuel (findFrom data pat pos) = .ok l ∧
      Leftmost data pat pos l := by
  have hlen : 0 < pat.length := List.length_pos_iff.mpr hp
  intro fuel
  induction fuel with
  | zero =>
    intro pos hf
    cases h : findFrom data pat pos with
    | none => exact ⟨[], rfl, by simp, .nil, fun j hj hat => absurd hat (findFrom_none h j hj)⟩
    | some i =>
      obtain ⟨h1, -, -, h4⟩ := findFrom_some h
      omega
  | succ fuel ih =>
    intro pos hf
    cases h : findFrom data pat pos with
    | none => exact ⟨[], rfl, by simp, .nil, fun j hj hat => absurd hat (findFrom_none h j hj)⟩
    | some i =>
      obtain ⟨h1, h2, h3, h4⟩ := findFrom_some h
      obtain ⟨l, hl, hL⟩ := ih (i + pat.length) (by omega)
      refine ⟨i :: l, by simp [findAllLoop, hl], ?_, ?_, ?_⟩
      · intro j hj
        rcases List.mem_cons.mp hj with rfl | hj
        · exact ⟨h1, h2⟩
        · exact ⟨by have := (hL.found j hj).1; omega, (hL.found j hj).2⟩
      · exact List.pairwise_cons.mpr ⟨fun j hj => (hL.found j hj).1, hL.apart⟩
      · intro j hj hat
        by_cases hji : j < i
        · exact absurd hat (h3 j hj hji)
        · by_cases hj2 : j < i + pat.length
          · exact ⟨i, List.mem_cons_self, by omega, hj2⟩
          · obtain ⟨k, hk, h5, h6⟩ := hL.cover j (by omega) hat
            exact ⟨k, List.mem_cons_of_mem _ hk, h5, h6⟩

/-- C116 (partial): for a text that is not empty, `FindAllOccurences` returns positions where it
stands, in increasing order and not overlapping, such that every occurrence overlaps one that is
returned and begins not later. Missing: the empty text (`C116_fails`). -/
theorem C116_leftmost_partial (data pat : Str) (hp : pat ≠ []) :
    ∃ l, findAllOccurences data pat = .ok l ∧ (∀ i ∈ l, At data pat i) ∧
      l.Pairwise (fun i j => i + pat.length ≤ j) ∧
      ∀ j, At data pat j → ∃ i ∈ l, i ≤ j ∧ j < i + pat.length := by
  obtain ⟨l, h1, h2⟩ := loop_leftmost (data := data) hp (data.length + 1) 0 (by omega)
  exact ⟨l, h1, fun i hi => (h2.found i hi).2, h2.apart, fun j hj => h2.cover j (by omega) hj⟩

/-- C116 (partial): no list of occurrences that do not overlap is longer than the one returned. -/
theorem C116_most_partial (data pat : Str) (hp : pat ≠ []) {l l' : List Nat}
    (h : findAllOccurences data pat = .ok l) (hl' : ∀ i ∈ l', At data pat i)
    (hap : l'.Pairwise fun i j => i + pat.length ≤ j) : l'.length ≤ l.length := by
  obtain ⟨l0, h1, -, -, hc⟩ := C116_leftmost_partial data pat hp
  obtain rfl : l0 = l := Outcome.ok.inj (h1.symm.trans h)
  have hlen : 0 < pat.length := List.length_pos_iff.mpr hp
  have hnd : l'.Nodup := hap.imp fun h => by omega
  have hdis : ∀ a ∈ l', ∀ b ∈ l', a < b → a + pat.length ≤ b := by
    intro a ha b hb hab
    rw [List.pairwise_iff_getElem] at hap
    obtain ⟨i, hi, rfl⟩ := List.getElem_of_mem ha
    obtain ⟨j, hj, rfl⟩ := List.getElem_of_mem hb
    rcases Nat.lt_trichotomy i j with h | h | h
    · exact hap i j hi hj h
    · subst h; omega
    · have := hap j i hj hi h; omega
  choose! f hf using hc
  have hinj : Set.InjOn f (l'.toFinset : Set Nat) := by
    intro a ha b hb hab
    simp only [List.coe_toFinset, Set.mem_ofPred_eq] at ha hb
    have h1 := hf a (hl' a ha)
    have h2 := hf b (hl' b hb)
    rcases Nat.lt_trichotomy a b with h | h | h
    · have := hdis a ha b hb h; omega
    · exact h
    · have := hdis b hb a ha h; omega
  have hmap : ∀ a ∈ l'.toFinset, f a ∈ l0.toFinset := by
    intro a ha
    exact List.mem_toFinset.mpr (hf a (hl' a (List.mem_toFinset.mp ha))).1
  have := Finset.card_le_card_of_injOn f hmap hinj
  rw [List.toFinset_card_of_nodup hnd] at this
  exact this.trans (List.toFinset_card_le l0)

/-- C116 is false for the empty text: the loop never ends, whatever bound is given. -/
theorem C116_fails (data : Str) (fuel : Nat) :
    findAllLoop data [] fuel (findFrom data [] 0) = .ub .unbounded := by
  have h : findFrom data [] 0 = some 0 := by
    unfold findFrom
    cases data <;> simp [findSub]
  rw [h]
  induction fuel with
  | zero => rfl
  | succ n ih => simp [findAllLoop, h, ih]

/-- Non-vacuity of C116: of the overlapping occurrences the leftmost ones are taken. -/
example : findAllOccurences c!"aaaaabaa" c!"aa" = .ok [0, 2, 6] ∧
    At c!"aaaaabaa" c!"aa" 1 := ⟨by decide, ⟨c!"a", c!"aabaa", by decide, by decide⟩⟩

end FindProps
end Casbin
