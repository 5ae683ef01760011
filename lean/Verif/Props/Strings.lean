import Verif.Util
import Mathlib.Data.List.TakeWhile

/-! # C65, C66: `Split`/`Join` and `Trim` -/

namespace Casbin

/-! ## C65 -/

theorem joinFrom_append (sep acc v : Str) (vs : List Str) :
    joinFrom sep (acc ++ v) vs = acc ++ joinFrom sep v vs := by
  induction vs generalizing v with
  | nil => simp [joinFrom]
  | cons w ws ih =>
    simp only [joinFrom]
    rw [List.append_assoc, List.append_assoc, ih, List.append_assoc]

theorem splitLoop_ne_nil (del : Str) (n : Nat) (s : Str) : splitLoop del n s ≠ [] := by
  cases n with
  | zero => simp [splitLoop]
  | succ n => simp only [splitLoop]; split <;> simp

theorem join_splitLoop (del : Str) (n : Nat) (s : Str) :
    join (splitLoop del n s) del = .ok s := by
  induction n generalizing s with
  | zero => simp [splitLoop, join, joinFrom]
  | succ n ih =>
    simp only [splitLoop]
    split
    · rename_i pos hpos
      have h1 := ih (s.drop (pos + del.length))
      have hs := findSub_some hpos
      cases hr : splitLoop del n (s.drop (pos + del.length)) with
      | nil => exact absurd hr (splitLoop_ne_nil _ _ _)
      | cons w ws =>
        rw [hr] at h1
        simp only [join, Outcome.ok.injEq] at h1 ⊢
        simp only [joinFrom]
        rw [joinFrom_append, h1]
        exact hs.symm
    · simp [join, joinFrom]

/-- C65, first half: joining the pieces with the delimiter gives back the text, for every text,
delimiter and limit. -/
theorem C65_join_split (s del : Str) (limit : Nat) : join (split s del limit) del = .ok s :=
  join_splitLoop _ _ _

theorem not_infix_take_of_first {pat s : Str} {i : Nat} (h : findSub pat s = some i)
    (hpat : pat ≠ []) : ¬ pat <:+: s.take i := by
  rintro ⟨a, b, hab⟩
  have hi := findSub_le h
  have hl := congrArg List.length hab
  simp only [List.length_append, List.length_take] at hl
  have hp : 0 < pat.length := List.length_pos_of_ne_nil hpat
  have hlt : a.length < i := by omega
  apply findSub_first h a.length hlt
  have hs : s = a ++ (pat ++ (b ++ s.drop i)) := by
    have := List.take_append_drop i s
    rw [← hab] at this
    simpa using this.symm
  refine ⟨b ++ s.drop i, ?_⟩
  have : s.drop a.length = pat ++ (b ++ s.drop i) := by
    conv_lhs => rw [hs]
    simp
  exact this.symm

theorem splitLoop_pieces (del : Str) (hd : del ≠ []) (n : Nat) (s : Str) (hn : s.length ≤ n) :
    ∀ p ∈ splitLoop del n s, ¬ del <:+: p := by
  induction n generalizing s with
  | zero =>
    have : s = [] := List.length_eq_zero_iff.mp (by omega)
    subst this
    intro p hp
    simp only [splitLoop, List.mem_singleton] at hp
    subst hp
    simpa using hd
  | succ n ih =>
    simp only [splitLoop]
    split
    · rename_i pos hpos
      intro p hp
      rcases List.mem_cons.mp hp with h | h
      · subst h; exact not_infix_take_of_first hpos hd
      · refine ih _ ?_ p h
        have := findSub_le hpos
        have hp : 0 < del.length := List.length_pos_of_ne_nil hd
        simp only [List.length_drop]; omega
    · rename_i hnone
      intro p hp
      simp only [List.mem_singleton] at hp
      subst hp
      exact findSub_none.mp hnone

/-- C65, second half: no piece contains the delimiter (texts shorter than the library's own
bound `LARGE`). -/
theorem C65_pieces_free (s del : Str) (hd : del ≠ []) (hs : s.length < splitLARGE) :
    ∀ p ∈ split s del, ¬ del <:+: p := by
  unfold split
  exact splitLoop_pieces del hd _ s (by simp only [if_true]; omega)

/-- The hypotheses are met by an ordinary text, and the result is the expected one. -/
example : split c!"a, b,,c" c!"," = [c!"a", c!" b", c!"", c!"c"] ∧ c!"," ≠ [] ∧
    (c!"a, b,,c").length < splitLARGE := by
  refine ⟨?_, by decide, by decide⟩
  rfl

/-- Further facts about `split` that pin it down for one-character delimiters: text without the
delimiter is one piece, and the first piece ends at the first delimiter. -/
theorem split_no_del (s del : Str) (limit : Nat) (h : ¬ del <:+: s) : split s del limit = [s] := by
  unfold split
  generalize (if limit = 0 then splitLARGE else limit) - 1 = n
  cases n with
  | zero => rfl
  | succ n => simp only [splitLoop, findSub_none.mpr h]

/-! ## C66 -/

/-- White space: tab, line feed, vertical tab, form feed, carriage return, space. -/
def Space (c : Char) : Prop := c ∈ c!"\t\n\x0b\x0c\r "

instance (c : Char) : Decidable (Space c) := inferInstanceAs (Decidable (c ∈ _))

theorem space_iff {c : Char} : Space c ↔ isBlank c = true := by
  have h11 : Char.ofNat 11 = '\x0b' := rfl
  have h12 : Char.ofNat 12 = '\x0c' := rfl
  simp only [Space, isBlank, List.mem_cons, List.not_mem_nil, or_false, Bool.or_eq_true,
    decide_eq_true_eq, h11, h12]
  tauto

theorem not_space_iff {c : Char} : ¬ Space c ↔ isBlank c = false := by
  rw [space_iff]; simp

theorem ltrim_suffix (s : Str) : ltrim s <:+ s := List.dropWhile_suffix _

theorem rtrim_prefix (s : Str) : rtrim s <+: s := by
  unfold rtrim
  have := List.reverse_prefix.mpr (List.dropWhile_suffix isBlank (l := s.reverse))
  simpa using this

theorem dropWhile_split (s : Str) :
    ∃ a, (∀ c ∈ a, isBlank c = true) ∧ s = a ++ s.dropWhile isBlank :=
  ⟨s.takeWhile isBlank, fun _ hc => List.mem_takeWhile_imp hc,
    (List.takeWhile_append_dropWhile).symm⟩

theorem head_dropWhile (s : Str) (c : Char) (h : (s.dropWhile isBlank).head? = some c) :
    isBlank c = false := by
  have := List.head?_dropWhile_not isBlank s
  rw [h] at this
  simpa using this

theorem trim_decomp (s : Str) :
    ∃ a b, (∀ c ∈ a, isBlank c = true) ∧ (∀ c ∈ b, isBlank c = true) ∧ s = a ++ trim s ++ b := by
  obtain ⟨b', hb', hs⟩ := dropWhile_split s.reverse
  obtain ⟨a, ha, hr⟩ := dropWhile_split (rtrim s)
  refine ⟨a, b'.reverse, ha, ?_, ?_⟩
  · intro c hc; exact hb' c (by simpa using hc)
  · have h1 : s = rtrim s ++ b'.reverse := by
      have := congrArg List.reverse hs
      simpa [rtrim] using this
    calc s = rtrim s ++ b'.reverse := h1
      _ = _ := by rw [hr]; simp [trim, ltrim, ← hr]

theorem rtrim_last (s : Str) (c : Char) (h : (rtrim s).getLast? = some c) : isBlank c = false := by
  unfold rtrim at h
  rw [List.getLast?_reverse] at h
  exact head_dropWhile _ _ h

theorem trim_ends (s : Str) :
    (∀ c, (trim s).head? = some c → isBlank c = false) ∧
    (∀ c, (trim s).getLast? = some c → isBlank c = false) := by
  refine ⟨fun c hc => head_dropWhile _ _ hc, fun c hc => ?_⟩
  obtain ⟨a, ha⟩ := ltrim_suffix (rtrim s)
  apply rtrim_last s c
  rw [← ha]
  unfold trim at hc
  rw [List.getLast?_append, hc]; simp

theorem trim_of_ends (s : Str) (h1 : ∀ c, s.head? = some c → isBlank c = false)
    (h2 : ∀ c, s.getLast? = some c → isBlank c = false) : trim s = s := by
  have hl : ∀ t : Str, (∀ c, t.head? = some c → isBlank c = false) →
      t.dropWhile isBlank = t := by
    intro t ht
    cases t with
    | nil => rfl
    | cons x xs => simp [ht x (by simp)]
  have hr : rtrim s = s := by
    unfold rtrim
    rw [hl s.reverse (by intro c hc; rw [List.head?_reverse] at hc; exact h2 c hc)]
    simp
  unfold trim ltrim
  rw [hr, hl s h1]

/-- C66: `Trim` is idempotent. -/
theorem C66_trim_idem (s : Str) : trim (trim s) = trim s :=
  trim_of_ends _ (trim_ends s).1 (trim_ends s).2

theorem trim_unique (a core b : Str) (ha : ∀ c ∈ a, isBlank c = true)
    (hb : ∀ c ∈ b, isBlank c = true) (h1 : ∀ c, core.head? = some c → isBlank c = false)
    (h2 : ∀ c, core.getLast? = some c → isBlank c = false) :
    trim (a ++ core ++ b) = core := by
  have hdrop : ∀ (x t : Str), (∀ c ∈ x, isBlank c = true) →
      (x ++ t).dropWhile isBlank = t.dropWhile isBlank := by
    intro x t hx
    induction x with
    | nil => rfl
    | cons y ys ih =>
      simp only [List.cons_append, List.dropWhile_cons, hx y (by simp), if_true]
      exact ih (fun c hc => hx c (List.mem_cons_of_mem _ hc))
  have hnb : ∀ t : Str, (∀ c, t.head? = some c → isBlank c = false) →
      t.dropWhile isBlank = t := by
    intro t ht
    cases t with
    | nil => rfl
    | cons x xs => simp [ht x (by simp)]
  by_cases hc : core = []
  · subst hc
    have hall : ∀ c ∈ (a ++ [] ++ b).reverse, isBlank c = true := by
      intro c hc
      simp at hc
      rcases hc with h | h
      · exact hb c h
      · exact ha c h
    have : rtrim (a ++ [] ++ b) = [] := by
      unfold rtrim
      have := hdrop _ [] hall
      rw [List.append_nil] at this
      rw [this]; rfl
    unfold trim
    rw [this]; rfl
  · have hr : rtrim (a ++ core ++ b) = a ++ core := by
      unfold rtrim
      rw [List.reverse_append, hdrop _ _ (by intro c hc; exact hb c (by simpa using hc)),
        hnb, List.reverse_reverse]
      intro c hc'
      rw [List.head?_reverse, List.getLast?_append] at hc'
      cases hg : core.getLast? with
      | none => exact absurd (List.getLast?_eq_none_iff.mp hg) hc
      | some d => rw [hg] at hc'; simp at hc'; subst hc'; exact h2 _ hg
    unfold trim ltrim
    rw [hr, hdrop a core ha, hnb core h1]

/-- C66: `Trim` deletes only white space at the two ends ... -/
theorem C66_trim_decomp (s : Str) :
    ∃ a b, (∀ c ∈ a, Space c) ∧ (∀ c ∈ b, Space c) ∧ s = a ++ trim s ++ b := by
  simpa only [space_iff] using trim_decomp s

/-- ... so that neither end of the result is white space. -/
theorem C66_trim_ends (s : Str) :
    (∀ c, (trim s).head? = some c → ¬ Space c) ∧ (∀ c, (trim s).getLast? = some c → ¬ Space c) := by
  simpa only [not_space_iff] using trim_ends s

/-- C66: the decomposition determines the result: any way of writing a text as white space, a core that
neither starts nor ends with white space, and white space has `Trim` of the text as its core. -/
theorem C66_trim_unique (a core b : Str) (ha : ∀ c ∈ a, Space c) (hb : ∀ c ∈ b, Space c)
    (h1 : ∀ c, core.head? = some c → ¬ Space c) (h2 : ∀ c, core.getLast? = some c → ¬ Space c) :
    trim (a ++ core ++ b) = core :=
  trim_unique a core b (fun c h => space_iff.mp (ha c h)) (fun c h => space_iff.mp (hb c h))
    (fun c h => not_space_iff.mp (h1 c h)) (fun c h => not_space_iff.mp (h2 c h))

example : trim c!"  a b\t" = c!"a b" := by rfl
example : trim c!" \t " = [] := by rfl

end Casbin
