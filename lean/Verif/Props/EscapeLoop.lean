import Verif.EscapeLoop
import Verif.Props.EvalSub

/-!
# C81 for the loop of `EscapeAssertion` as it is written
-/

namespace Casbin
namespace EvalProps

/-- Before the first character of a run nothing changes. -/
theorem escapeFrom_skip (u : Str) :
    escapeFrom false u = u.takeWhile (fun c => !isEscChar c) ++
      escapeFrom false (u.drop (u.takeWhile (fun c => !isEscChar c)).length) := by
  induction u with
  | nil => rfl
  | cons c s ih =>
    by_cases hc : isEscChar c = true
    · simp [hc]
    · simp only [Bool.not_eq_true] at hc
      simp only [escapeFrom, hc, List.takeWhile_cons, Bool.not_false, if_true, List.length_cons,
        List.drop_succ_cons, List.cons_append, Bool.false_eq_true, if_false]
      rw [← ih]

/-- A run of which the dot has been met stays. -/
theorem escapeFrom_seen (u : Str) :
    escapeFrom true u = u.takeWhile isEscChar ++ escapeFrom false (u.drop (u.takeWhile isEscChar).length) := by
  induction u with
  | nil => rfl
  | cons c s ih =>
    by_cases hc : isEscChar c = true
    · simp [escapeFrom, hc, ih]
    · simp [escapeFrom, hc]

/-- A run loses its first dot. -/
theorem escapeFrom_run (u : Str) :
    escapeFrom false u =
      dotOut (u.takeWhile isEscChar) ++ escapeFrom false (u.drop (u.takeWhile isEscChar).length) := by
  induction u with
  | nil => rfl
  | cons c s ih =>
    by_cases hc : isEscChar c = true
    · by_cases hd : c = '.'
      · subst hd
        simp [escapeFrom, hc, dotOut, escapeFrom_seen s]
      · simp [escapeFrom, hc, dotOut, hd, ih]
    · simp [escapeFrom, hc, dotOut]

/-- The loop on a text of which the part before the position is done. -/
theorem escapeLoop_eq (t : Str) (i : Nat) (hi : i ≤ t.length) :
    escapeLoop t i = t.take i ++ escapeFrom false (t.drop i) := by
  rw [escapeLoop]
  have hs : escStart t i ≤ t.length := by
    have := (List.takeWhile_prefix (l := t.drop i) (fun c => !isEscChar c)).length_le
    simp only [List.length_drop] at this
    simp only [escStart]; omega
  have hle : i ≤ escStart t i := by simp [escStart]
  have hskip := escapeFrom_skip (t.drop i)
  rw [List.drop_drop] at hskip
  have hpre : t.take (escStart t i) = t.take i ++ (t.drop i).takeWhile (fun c => !isEscChar c) := by
    rw [escStart, List.take_add]
    congr 1
    exact (List.prefix_iff_eq_take.mp (List.takeWhile_prefix _)).symm
  split
  · rename_i h
    have hp := escLength_pos t i h
    have hl : escLength t (escStart t i) ≤ t.length - escStart t i := by
      have := (List.takeWhile_prefix (l := t.drop (escStart t i)) isEscChar).length_le
      simpa [escLength] using this
    have hlen := replaceAt_length t (escStart t i) hs
    have htake : (t.drop (escStart t i)).take (escLength t (escStart t i)) =
        (t.drop (escStart t i)).takeWhile isEscChar :=
      (List.prefix_iff_eq_take.mp (List.takeWhile_prefix _)).symm
    rw [escapeLoop_eq _ _ (by rw [hlen]; omega), hskip, ← List.append_assoc, ← hpre]
    have hrun := escapeFrom_run (t.drop (escStart t i))
    rw [List.drop_drop] at hrun
    change _ = t.take (escStart t i) ++ escapeFrom false (t.drop (escStart t i))
    rw [hrun, htake, ← List.append_assoc]
    have hfront : (t.take (escStart t i) ++ dotOut ((t.drop (escStart t i)).takeWhile isEscChar)).length =
        escStart t i + escLength t (escStart t i) := by
      simp [dotOut_length, escLength, Nat.min_eq_left hs]
    congr 1
    · rw [replaceAt, ← hfront, List.take_left]
    · congr 1
      rw [replaceAt]
      rw [← hfront, List.drop_left, hfront]
      rfl
  · rename_i h
    have he : escStart t i = t.length := by omega
    rw [hskip]
    have : t.drop (i + ((t.drop i).takeWhile (fun c => !isEscChar c)).length) = [] := by
      rw [List.drop_eq_nil_iff]; exact he.ge
    rw [this, ← List.append_assoc, ← hpre, he]
    simp [escapeFrom]
termination_by t.length - i
decreasing_by
  rw [replaceAt_length t _ hs]
  omega

/-- C81: the loop that replaces in the text it is searching ends with the first dot of every run replaced, and
nothing else, as one pass over an unchanged text would. -/
theorem C81_loop (s : Str) :
    escapeLoop s 0 = escapeAssertion s ∧ (escapeLoop s 0).length = s.length ∧
    ∀ i, (FirstDot s i → (escapeLoop s 0)[i]? = some '_') ∧ (¬ FirstDot s i → (escapeLoop s 0)[i]? = s[i]?) := by
  have h : escapeLoop s 0 = escapeAssertion s := by
    rw [escapeLoop_eq s 0 (Nat.zero_le _)]; simp [escapeAssertion]
  refine ⟨h, ?_, fun i => h ▸ C81_escape s i⟩
  rw [h, escapeAssertion]
  have : ∀ (u : Str) (b : Bool), (escapeFrom b u).length = u.length := by
    intro u
    induction u with
    | nil => intro b; rfl
    | cons c u ih => intro b; simp only [escapeFrom]; split <;> (try split) <;> simp [ih]
  exact this s false

/-- Two runs; the second dot of the first stays, though the searched text has an underscore there by then. -/
example : escapeLoop c!"r.sub.Age == p.sub" 0 = c!"r_sub.Age == p_sub" := by
  rw [(C81_loop _).1]; decide

end EvalProps
end Casbin
