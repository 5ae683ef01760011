import Verif.ModelDef
import Verif.ModelLemmas
import Verif.Props.Strings
import Verif.Fixtures
import Mathlib.Data.List.Induction
import Mathlib.Data.List.Perm.Subperm
import Std.Data.String.ToNat

/-! # Lemmas and specifications for C55–C59 -/

namespace Casbin
namespace ConfigProps

/-! ## C55 -/

theorem findSub_colons {s t : Str} (h : ':' ∉ s) :
    findSub c!"::" (s ++ c!"::" ++ t) = some s.length := by
  induction s with
  | nil => simp [findSub, List.isPrefixOf]
  | cons c s ih =>
    simp only [List.mem_cons, not_or] at h
    have hc : (c!"::").isPrefixOf (c :: (s ++ c!"::" ++ t)) = false := by
      simp [List.isPrefixOf, h.1]
    simp only [List.cons_append, findSub]
    rw [if_neg (by rw [hc]; simp), ih h.2]
    simp

theorem findSub_no_colon {s : Str} (h : ':' ∉ s) : findSub c!"::" s = none := by
  rw [findSub_none]
  intro hi
  exact h (hi.subset (by simp))

theorem split_unlimited (s del : Str) : split s del = splitLoop del (splitLARGE - 3 + 1 + 1) s :=
  congrArg (fun n => splitLoop del n s) (by decide)

theorem split_qualified {sec opt : Str} (hs : ':' ∉ sec) (ho : ':' ∉ opt) :
    split (sec ++ c!"::" ++ opt) c!"::" = [sec, opt] := by
  rw [split_unlimited]
  generalize splitLARGE - 3 = n
  rw [splitLoop, findSub_colons hs]
  simp only [splitLoop, List.append_assoc, List.take_left']
  rw [← List.append_assoc, List.drop_left' (by simp)]
  simp [findSub_no_colon ho]

theorem split_plain {opt : Str} (ho : ':' ∉ opt) : split opt c!"::" = [opt] := by
  rw [split_unlimited, splitLoop, findSub_no_colon ho]

theorem options_addConfig (s o v s' : Str) (d : Config) :
    (Config.addConfig s o v d).options s' =
      if (if s = [] then Config.defaultSection else s) = s' then (d.options s').set o v
      else d.options s' := by
  simp only [Config.addConfig, Config.options, UMap.get_set]
  by_cases h : (if s = [] then Config.defaultSection else s) = s'
  · simp [h]
  · simp [h]

/-- What `Get` reads, for a key made of a section and an option. -/
theorem get_qualified {sec opt : Str} (hs : ':' ∉ sec) (ho : ':' ∉ opt) (d : Config) :
    Config.get (sec ++ c!"::" ++ opt) d =
      match (d.options sec).get opt with
      | some v => v
      | none => [] := by
  unfold Config.get Config.keyOfGet
  rw [split_qualified hs ho]
  rfl

theorem set_run (s : ConfigSt) (h : s.locked = false) {key : Str} (hk : key ≠ []) (v : Str) :
    ConfigSt.set key v s = (.ok (), { s with
      data := Config.addConfig (Config.keyOfSet key).1 (Config.keyOfSet key).2 v s.data }) := by
  simp [ConfigSt.set, ConfigSt.lock, ConfigSt.unlock, M.bind_run, h, hk]

/-! ## C56 -/

/-- The lines are the text cut at its newlines. -/
theorem getLines_spec (text : Str) : (∀ l ∈ getLines text, '\n' ∉ l) ∧
    (text = (getLines text).flatMap (· ++ c!"\n") ∨
      ∃ ls last, getLines text = ls ++ [last] ∧ last ≠ [] ∧
        text = ls.flatMap (· ++ c!"\n") ++ last) := by
  induction text with
  | nil => simp [getLines]
  | cons c s ih =>
    simp only [getLines]
    by_cases hc : c = '\n'
    · subst hc
      simp only [if_true]
      refine ⟨by simpa using ih.1, ?_⟩
      rcases ih.2 with h | ⟨ls, last, h1, h2, h3⟩
      · left; rw [List.flatMap_cons, ← h]; simp
      · right
        refine ⟨[] :: ls, last, by simp [h1], h2, ?_⟩
        rw [h3]; simp
    · simp only [if_neg hc]
      have hc' : ¬ '\n' = c := fun e => hc e.symm
      cases hl : getLines s with
      | nil =>
        rw [hl] at ih
        simp only [List.mem_singleton, forall_eq, hc', not_false_eq_true]
        have hs : s = [] := by
          rcases ih.2 with h | ⟨ls, last, h1, _, _⟩
          · simpa using h
          · simp at h1
        subst hs
        exact ⟨by simp, .inr ⟨[], [c], by simp, by simp, by simp⟩⟩
      | cons l ls =>
        rw [hl] at ih
        refine ⟨?_, ?_⟩
        · intro x hx
          rcases List.mem_cons.mp hx with rfl | hx
          · simp only [List.mem_cons, not_or]; exact ⟨hc', ih.1 l (by simp)⟩
          · exact ih.1 x (by simp [hx])
        · rcases ih.2 with h | ⟨ls', last, h1, h2, h3⟩
          · left; rw [h]; simp
          · right
            cases ls' with
            | nil =>
              simp only [List.nil_append, List.cons.injEq] at h1
              obtain ⟨rfl, rfl⟩ := h1
              exact ⟨[], c :: l, by simp, by simp, by rw [h3]; simp⟩
            | cons l' ls'' =>
              simp only [List.cons_append, List.cons.injEq] at h1
              obtain ⟨rfl, rfl⟩ := h1
              exact ⟨(c :: l) :: ls'', last, by simp, h2, by rw [h3]; simp⟩

/-- An empty line or a comment. -/
def Skipped (l : Str) : Prop := l = [] ∨ (trim l).head? = some '#' ∨ (trim l).head? = some ';'

/-- The section header `[s]`. -/
def Header (l s : Str) : Prop := trim l = c!"[" ++ s ++ c!"]"

/-- The assignment `o = v`. -/
def Assigns (l o v : Str) : Prop :=
  ¬ Skipped l ∧ (¬ ∃ s, Header l s) ∧ ∃ a b, trim l = a ++ c!"=" ++ b ∧ '=' ∉ a ∧ o = trim a ∧
    v = trim b

/-- Any other line. -/
def Bad (l : Str) : Prop := ¬ Skipped l ∧ (¬ ∃ s, Header l s) ∧ '=' ∉ trim l

/-- The section in force after some lines: the last header, the empty name if there is none. -/
def SectionAt (ls : List Str) (s : Str) : Prop :=
  (s = [] ∧ ∀ l ∈ ls, ¬ ∃ s', Header l s') ∨
  ∃ pre l post, ls = pre ++ l :: post ∧ Header l s ∧ ∀ l' ∈ post, ¬ ∃ s', Header l' s'

/-- Options before any header belong to the section `default`. -/
def Names (s sec : Str) : Prop := sec = if s = [] then c!"default" else s

/-- The last assignment to option `opt` of section `sec` is of the value `v`. -/
def LastAssigned (ls : List Str) (sec opt v : Str) : Prop :=
  ∃ pre l post s, ls = pre ++ l :: post ∧ SectionAt pre s ∧ Names s sec ∧ Assigns l opt v ∧
    ∀ pre' l' post', post = pre' ++ l' :: post' → ∀ s' v',
      SectionAt (pre ++ l :: pre') s' → Names s' sec → ¬ Assigns l' opt v'

theorem not_skipped_header {l s : Str} (h : Header l s) : ¬ ((trim l).head? = some '#') ∧
    ¬ ((trim l).head? = some ';') := by
  unfold Header at h
  rw [h]; simp

theorem header_iff (t : Str) (h : t.head? = some '[') :
    endsWith t c!"]" = .ok true ↔ ∃ s, t = c!"[" ++ s ++ c!"]" := by
  obtain ⟨t', rfl⟩ : ∃ t', t = '[' :: t' := by
    cases t with
    | nil => simp at h
    | cons c t' => simp at h; exact ⟨t', by rw [h]⟩
  unfold endsWith
  have hlen : ¬ (('[' :: t').length < c!"]".length) := by simp
  rw [if_neg hlen]
  simp only [Outcome.ok.injEq, decide_eq_true_eq]
  constructor
  · intro he
    rcases List.eq_nil_or_concat t' with rfl | ⟨s, c, rfl⟩
    · simp at he
    · refine ⟨s, ?_⟩
      have : ('[' :: (s ++ [c])).drop (('[' :: (s ++ [c])).length - c!"]".length) = [c] := by
        simp
      rw [List.concat_eq_append] at he
      rw [this] at he
      simp only [List.cons.injEq, and_true] at he
      subst he
      simp
  · rintro ⟨s, hs⟩
    rw [hs]
    simp

theorem endsWith_ok {t : Str} (h : t.head? = some '[') : ∃ b, endsWith t c!"]" = .ok b := by
  cases t with
  | nil => simp at h
  | cons c t' => exact ⟨_, by simp [endsWith]; rfl⟩

theorem split_eq2 (t : Str) : split t c!"=" 2 =
    match findSub c!"=" t with
    | some pos => [t.take pos, t.drop (pos + 1)]
    | none => [t] := by
  simp only [split]
  show splitLoop c!"=" 1 t = _
  simp only [splitLoop]
  cases findSub c!"=" t <;> simp

theorem findSub_eq {a b : Str} (h : '=' ∉ a) : findSub c!"=" (a ++ c!"=" ++ b) = some a.length := by
  induction a with
  | nil => simp [findSub, List.isPrefixOf]
  | cons c a ih =>
    simp only [List.mem_cons, not_or] at h
    simp only [List.cons_append, findSub]
    rw [if_neg (by simp [List.isPrefixOf, h.1]), ih h.2]
    simp

theorem findSub_eq_some {t : Str} {i : Nat} (h : findSub c!"=" t = some i) :
    '=' ∉ t.take i := by
  intro hm
  obtain ⟨j, hj, hx⟩ := List.getElem_of_mem hm
  have hji : j < i := by simpa using (List.length_take ▸ hj : j < min i t.length).trans_le (by simp)
  have hjt : j < t.length := by
    have : j < (t.take i).length := hj
    simp only [List.length_take] at this
    omega
  refine findSub_first h j hji ?_
  rw [List.drop_eq_getElem_cons hjt]
  simp only [List.getElem_take] at hx
  rw [hx]
  exact ⟨_, rfl⟩

/-- What one line does. -/
theorem parseLine_cases (l : Str) (st : Str × Config) :
    (Skipped l → Config.parseLine l st = .ok st) ∧
    (∀ s, Header l s → Config.parseLine l st = .ok (s, st.2)) ∧
    (∀ o v, Assigns l o v → Config.parseLine l st = .ok (st.1, Config.addConfig st.1 o v st.2)) ∧
    (Bad l → Config.parseLine l st = .throw .illegalArgument) := by
  refine ⟨?_, ?_, ?_, ?_⟩
  · rintro (rfl | h | h)
    · simp [Config.parseLine]
    · unfold Config.parseLine; split <;> simp [h]
    · unfold Config.parseLine; split <;> simp [h]
  · intro s h
    have hn := not_skipped_header h
    have hl : l ≠ [] := by
      rintro rfl
      simp [Header, trim, rtrim, ltrim] at h
    have hb : (trim l).head? = some '[' := by unfold Header at h; rw [h]; simp
    have he := (header_iff _ hb).mpr ⟨s, h⟩
    unfold Config.parseLine
    simp only [hl, if_false, hb, he, if_true, Outcome.ok_bind]
    unfold Header at h
    rw [h]
    simp
  all_goals
    have hrest : ¬ Skipped l → (¬ ∃ s, Header l s) → Config.parseLine l st =
        match split (trim l) c!"=" 2 with
        | [o, v] => .ok (st.1, Config.addConfig st.1 (trim o) (trim v) st.2)
        | _ => .throw .illegalArgument := by
      intro hs hh
      simp only [Skipped, not_or] at hs
      unfold Config.parseLine
      simp only [hs.1, if_false, hs.2.1, hs.2.2]
      by_cases hb : (trim l).head? = some '['
      · obtain ⟨b, he⟩ := endsWith_ok hb
        cases b with
        | true => exact absurd ((header_iff _ hb).mp he) hh
        | false => simp [hb, he]; rfl
      · simp [hb]; rfl
  · rintro o v ⟨hs, hh, a, b, ht, ha, rfl, rfl⟩
    rw [hrest hs hh, split_eq2, ht, findSub_eq ha]
    simp
  · rintro ⟨hs, hh, hb⟩
    have hf : findSub c!"=" (trim l) = none := by
      rw [findSub_none]; intro hi; exact hb (hi.subset (by simp))
    rw [hrest hs hh, split_eq2, hf]

/-- Every line is of one of the four kinds. -/
theorem line_kind (l : Str) : Skipped l ∨ (∃ s, Header l s) ∨ (∃ o v, Assigns l o v) ∨ Bad l := by
  by_cases h1 : Skipped l
  · exact .inl h1
  by_cases h2 : ∃ s, Header l s
  · exact .inr (.inl h2)
  by_cases h3 : '=' ∈ trim l
  · refine .inr (.inr (.inl ?_))
    cases hf : findSub c!"=" (trim l) with
    | none =>
      rw [findSub_none] at hf
      obtain ⟨a, b, e⟩ := List.append_of_mem h3
      exact absurd ⟨a, b, by rw [e]; simp⟩ hf
    | some i =>
      have h4 := findSub_some hf
      have h5 := findSub_eq_some hf
      exact ⟨_, _, h1, h2, (trim l).take i, (trim l).drop (i + 1), by simpa using h4, h5, rfl, rfl⟩
  · exact .inr (.inr (.inr ⟨h1, h2, h3⟩))

theorem snoc_split {α : Type} {ls pre post : List α} {l x : α} (h : ls ++ [l] = pre ++ x :: post) :
    (post = [] ∧ ls = pre ∧ l = x) ∨ ∃ post', post = post' ++ [l] ∧ ls = pre ++ x :: post' := by
  rcases List.eq_nil_or_concat post with rfl | ⟨post', y, rfl⟩
  · left
    have := List.append_inj' h rfl
    exact ⟨rfl, this.1, by simpa using this.2⟩
  · right
    rw [List.concat_eq_append] at h ⊢
    have h' : ls ++ [l] = (pre ++ x :: post') ++ [y] := by simpa using h
    have := List.append_inj' h' rfl
    exact ⟨post', by rw [show l = y by simpa using this.2], this.1⟩

theorem header_unique {l s s' : Str} (h : Header l s) (h' : Header l s') : s = s' := by
  unfold Header at h h'
  have := h.symm.trans h'
  simpa using this

theorem sectionAt_snoc (ls : List Str) (l s : Str) : SectionAt (ls ++ [l]) s ↔
    Header l s ∨ ((¬ ∃ s', Header l s') ∧ SectionAt ls s) := by
  constructor
  · rintro (⟨rfl, h⟩ | ⟨pre, x, post, e, hx, hp⟩)
    · exact .inr ⟨h l (by simp), .inl ⟨rfl, fun x hx => h x (by simp [hx])⟩⟩
    · rcases snoc_split e with ⟨rfl, rfl, rfl⟩ | ⟨post', rfl, rfl⟩
      · exact .inl hx
      · exact .inr ⟨hp l (by simp), .inr ⟨pre, x, post', rfl, hx, fun y hy => hp y (by simp [hy])⟩⟩
  · rintro (h | ⟨hn, ⟨rfl, h⟩ | ⟨pre, x, post, rfl, hx, hp⟩⟩)
    · exact .inr ⟨ls, l, [], rfl, h, by simp⟩
    · refine .inl ⟨rfl, fun x hx => ?_⟩
      rcases List.mem_append.mp hx with hx | hx
      · exact h x hx
      · simp only [List.mem_singleton] at hx; subst hx; exact hn
    · refine .inr ⟨pre, x, post ++ [l], by simp, hx, fun y hy => ?_⟩
      rcases List.mem_append.mp hy with hy | hy
      · exact hp y hy
      · simp only [List.mem_singleton] at hy; subst hy; exact hn

theorem lastAssigned_snoc (ls : List Str) (l sec opt v : Str) :
    LastAssigned (ls ++ [l]) sec opt v ↔
      (∃ s, SectionAt ls s ∧ Names s sec ∧ Assigns l opt v) ∨
      ((¬ ∃ s v', SectionAt ls s ∧ Names s sec ∧ Assigns l opt v') ∧ LastAssigned ls sec opt v) := by
  constructor
  · rintro ⟨pre, x, post, s, e, hs, hn, ha, hp⟩
    rcases snoc_split e with ⟨rfl, rfl, rfl⟩ | ⟨post', rfl, rfl⟩
    · exact .inl ⟨s, hs, hn, ha⟩
    · refine .inr ⟨?_, pre, x, post', s, rfl, hs, hn, ha, ?_⟩
      · rintro ⟨s', v', h1, h2, h3⟩
        exact hp post' l [] rfl s' v' h1 h2 h3
      · intro pre' l' post'' e' s' v' h1 h2 h3
        exact hp pre' l' (post'' ++ [l]) (by rw [e']; simp) s' v' h1 h2 h3
  · rintro (⟨s, hs, hn, ha⟩ | ⟨hno, pre, x, post, s, rfl, hs, hn, ha, hp⟩)
    · exact ⟨ls, l, [], s, rfl, hs, hn, ha, fun pre' l' post' e => by simp at e⟩
    · refine ⟨pre, x, post ++ [l], s, by simp, hs, hn, ha, ?_⟩
      intro pre' l' post' e s' v' h1 h2 h3
      rcases snoc_split e with ⟨rfl, rfl, rfl⟩ | ⟨post'', rfl, rfl⟩
      · exact hno ⟨s', v', h1, h2, h3⟩
      · exact hp pre' l' post'' rfl s' v' h1 h2 h3

theorem parseLines_snoc (ls : List Str) (l : Str) : ∀ st : Str × Config,
    Config.parseLines (ls ++ [l]) st = (Config.parseLines ls st >>= Config.parseLine l) := by
  induction ls with
  | nil =>
    intro st
    simp only [List.nil_append, Config.parseLines, Outcome.ok_bind]
    cases Config.parseLine l st <;> rfl
  | cons x ls ih =>
    intro st
    simp only [List.cons_append, Config.parseLines, bind_assoc]
    cases Config.parseLine x st with
    | ok st' => simp [ih]
    | throw e => rfl
    | ub u => rfl

/-- What the lines of a text without bad lines give. -/
theorem parseLines_spec (ls : List Str) : (∀ l ∈ ls, ¬ Bad l) →
    ∃ st, Config.parseLines ls ([], []) = .ok st ∧ (∀ s, SectionAt ls s ↔ s = st.1) ∧
      ∀ sec opt v, (st.2.options sec).get opt = some v ↔ LastAssigned ls sec opt v := by
  induction ls using List.reverseRecOn with
  | nil =>
    intro _
    refine ⟨([], []), rfl, ?_, ?_⟩
    · intro s
      constructor
      · rintro (⟨rfl, _⟩ | ⟨pre, l, post, e, _⟩)
        · rfl
        · simp at e
      · rintro rfl; exact .inl ⟨rfl, by simp⟩
    · intro sec opt v
      constructor
      · intro h; simp [Config.options] at h
      · rintro ⟨pre, l, post, s, e, _⟩; simp at e
  | append_singleton ls l ih =>
    intro hbad
    obtain ⟨st, h1, h2, h3⟩ := ih fun x hx => hbad x (by simp [hx])
    have hk := parseLine_cases l st
    rw [parseLines_snoc, h1, Outcome.ok_bind]
    rcases line_kind l with hs | ⟨s, hh⟩ | ⟨o, w, ha⟩ | hb
    · have hnh : ¬ ∃ s', Header l s' := by
        rintro ⟨s', hh⟩
        rcases hs with rfl | hs | hs
        · simp [Header, trim, rtrim, ltrim] at hh
        · exact (not_skipped_header hh).1 hs
        · exact (not_skipped_header hh).2 hs
      refine ⟨st, hk.1 hs, ?_, ?_⟩
      · intro s
        rw [sectionAt_snoc, h2]
        constructor
        · rintro (h | ⟨_, h⟩)
          · exact absurd ⟨s, h⟩ hnh
          · exact h
        · intro h; exact .inr ⟨hnh, h⟩
      · intro sec opt v
        rw [h3, lastAssigned_snoc]
        constructor
        · intro h; exact .inr ⟨fun ⟨_, _, _, _, h⟩ => h.1 hs, h⟩
        · rintro (⟨_, _, _, h⟩ | ⟨_, h⟩)
          · exact absurd hs h.1
          · exact h
    · refine ⟨(s, st.2), hk.2.1 s hh, ?_, ?_⟩
      · intro s'
        rw [sectionAt_snoc]
        constructor
        · rintro (h | ⟨h, _⟩)
          · exact header_unique h hh
          · exact absurd ⟨s, hh⟩ h
        · rintro rfl; exact .inl hh
      · intro sec opt v
        rw [h3, lastAssigned_snoc]
        constructor
        · intro h; exact .inr ⟨fun ⟨_, _, _, _, h⟩ => h.2.1 ⟨s, hh⟩, h⟩
        · rintro (⟨_, _, _, h⟩ | ⟨_, h⟩)
          · exact absurd ⟨s, hh⟩ h.2.1
          · exact h
    · refine ⟨_, hk.2.2.1 o w ha, ?_, ?_⟩
      · intro s
        rw [sectionAt_snoc, h2]
        constructor
        · rintro (h | ⟨_, h⟩)
          · exact absurd ⟨s, h⟩ ha.2.1
          · exact h
        · intro h; exact .inr ⟨ha.2.1, h⟩
      · intro sec opt v
        have huniq : ∀ o' w', Assigns l o' w' → o' = o ∧ w' = w := by
          rintro o' w' ha'
          obtain ⟨_, _, a, b, e, hq, rfl, rfl⟩ := ha
          obtain ⟨_, _, a', b', e', hq', rfl, rfl⟩ := ha'
          have f1 := findSub_eq (b := b) hq
          have f2 := findSub_eq (b := b') hq'
          rw [← e] at f1
          rw [← e'] at f2
          rw [f1] at f2
          have hl : a.length = a'.length := by simpa using f2
          have e2 := e.symm.trans e'
          rw [List.append_assoc, List.append_assoc] at e2
          have := List.append_inj e2 hl
          exact ⟨by rw [this.1], by rw [show b = b' by simpa using this.2]⟩
        rw [lastAssigned_snoc, options_addConfig]
        have hname : ∀ s, SectionAt ls s ∧ Names s sec ↔
            s = st.1 ∧ (if st.1 = [] then Config.defaultSection else st.1) = sec := by
          intro s
          rw [h2]
          constructor
          · rintro ⟨rfl, h⟩; exact ⟨rfl, h.symm⟩
          · rintro ⟨rfl, h⟩; exact ⟨rfl, h.symm⟩
        by_cases hsec : (if st.1 = [] then Config.defaultSection else st.1) = sec
        · rw [if_pos hsec, UMap.get_set]
          by_cases ho : o = opt
          · subst ho
            rw [if_pos rfl]
            constructor
            · intro h
              cases h
              obtain ⟨i1, i2⟩ := (hname st.1).mpr ⟨rfl, hsec⟩
              exact .inl ⟨_, i1, i2, ha⟩
            · rintro (⟨s, _, _, h⟩ | ⟨h, _⟩)
              · rw [(huniq _ _ h).2]
              · obtain ⟨i1, i2⟩ := (hname st.1).mpr ⟨rfl, hsec⟩
                exact absurd ⟨_, _, i1, i2, ha⟩ h
          · rw [if_neg ho, h3]
            constructor
            · intro h
              exact .inr ⟨fun ⟨_, _, _, _, h⟩ => ho (huniq _ _ h).1.symm, h⟩
            · rintro (⟨_, _, _, h⟩ | ⟨_, h⟩)
              · exact absurd (huniq _ _ h).1.symm ho
              · exact h
        · rw [if_neg hsec, h3]
          constructor
          · intro h
            refine .inr ⟨?_, h⟩
            rintro ⟨s, _, i1, i2, _⟩
            exact hsec ((hname s).mp ⟨i1, i2⟩).2
          · rintro (⟨s, i1, i2, _⟩ | ⟨_, h⟩)
            · exact absurd ((hname s).mp ⟨i1, i2⟩).2 hsec
            · exact h
    · exact absurd hb (hbad l (by simp))

/-- A bad line makes reading fail. -/
theorem parseLines_bad (ls : List Str) (l : Str) (hl : l ∈ ls) (hb : Bad l) :
    ∀ st, Config.parseLines ls st = .throw .illegalArgument := by
  induction ls with
  | nil => simp at hl
  | cons x ls ih =>
    intro st
    simp only [Config.parseLines]
    have hk := parseLine_cases x st
    rcases List.mem_cons.mp hl with rfl | hl
    · rw [hk.2.2.2 hb]; rfl
    · rcases line_kind x with hs | ⟨s, hh⟩ | ⟨o, w, ha⟩ | hb'
      · rw [hk.1 hs]; exact ih hl _
      · rw [hk.2.1 s hh]; exact ih hl _
      · rw [hk.2.2.1 o w ha]; exact ih hl _
      · rw [hk.2.2.2 hb']; rfl

/-! ## C57 -/

/-! ## C58 -/

/-- Every regex compiles. -/
def RxTotal (rx : Str → Str → Outcome Str) : Prop := ∀ pat s, ∃ t, rx pat s = .ok t

/-- The section has its main definition. -/
def Defined (d : Config) (sec : Str) : Prop :=
  Config.get (Model.sectionName sec ++ c!"::" ++ sec) d ≠ []

/-- The state in which the storage choice of `AddDef` cannot fail. -/
def Ready (m : Model) : Prop := ∀ a, m.find c!"r" c!"r" = some a →
  a.tokens ≠ [] ∧ (∀ t ∈ a.tokens, 2 ≤ t.length) ∧ (m.find c!"m" c!"m").isSome

theorem stripMatcher_ok {rx} (hrx : RxTotal rx) : ∀ (ts : List Str) (s : Str),
    (∀ t ∈ ts, 2 ≤ t.length) → ∃ s', stripMatcher rx ts s = .ok s' := by
  intro ts
  induction ts with
  | nil => intro s _; exact ⟨s, rfl⟩
  | cons t ts ih =>
    intro s h
    have ht := h t (by simp)
    obtain ⟨s1, h1⟩ : ∃ s1, regexRemove rx (hashPattern t) s = .ok s1 := by
      unfold regexRemove
      split
      · exact ⟨_, rfl⟩
      · exact hrx _ _
    obtain ⟨s2, h2⟩ := ih s1 fun x hx => h x (by simp [hx])
    exact ⟨s2, by rw [stripMatcher, if_neg (by omega), h1, Outcome.ok_bind, h2]⟩

theorem hashPossible_ok {rx} (hrx : RxTotal rx) {m : Model} (h : Ready m) :
    ∃ b, hashPossible rx m = .ok b := by
  unfold hashPossible
  cases hr : m.find c!"r" c!"r" with
  | none => exact ⟨_, rfl⟩
  | some r =>
    obtain ⟨h1, h2, h3⟩ := h r hr
    cases hm : m.find c!"m" c!"m" with
    | none => rw [hm] at h3; cases h3
    | some ma =>
      obtain ⟨s', hs⟩ := stripMatcher_ok hrx r.tokens ma.value h2
      simp only [hs, Outcome.ok_bind, if_neg h1]
      exact ⟨_, rfl⟩

theorem ready_ensureSec {m : Model} {sec : Str} (h : Ready m) : Ready (m.ensureSec sec) := by
  intro a ha
  rw [Model.find_ensureSec] at ha ⊢
  exact h a ha

theorem newAssertion_tokens (key value : Str) (b : Bool) :
    (newAssertion c!"r" key value b).tokens ≠ [] ∧
      ∀ t ∈ (newAssertion c!"r" key value b).tokens, key.length + 1 ≤ t.length := by
  simp only [newAssertion, true_or, if_true]
  constructor
  · simp only [ne_eq, List.map_eq_nil_iff]
    exact splitLoop_ne_nil _ _ _
  · intro t ht
    obtain ⟨x, _, rfl⟩ := List.mem_map.mp ht
    simp

theorem ready_put {m : Model} {sec key value : Str} {b : Bool} (h : Ready m)
    (hr : sec = c!"r" → (m.find c!"m" c!"m").isSome) :
    Ready (m.put sec key (newAssertion sec key value b)) := by
  intro a ha
  rw [Model.find_put] at ha
  rw [Model.find_put]
  by_cases h1 : sec = c!"r" ∧ key = c!"r"
  · obtain ⟨rfl, rfl⟩ := h1
    rw [if_pos ⟨rfl, rfl⟩] at ha
    cases ha
    have ht := newAssertion_tokens c!"r" value b
    refine ⟨ht.1, fun t h => ht.2 t h, ?_⟩
    rw [if_neg (by simp)]
    exact hr rfl
  · rw [if_neg h1] at ha
    obtain ⟨i1, i2, i3⟩ := h a ha
    refine ⟨i1, i2, ?_⟩
    split
    · rfl
    · exact i3

theorem has_put (m : Model) (s t s' : Str) (a : Assertion) :
    (m.put s t a).has s' = (decide (s = s') || m.has s') := by
  unfold Model.put
  cases h : m.get s <;> simp only [UMap.has, UMap.get_set] <;> by_cases e : s = s' <;> simp [e]

theorem has_ensureSec (m : Model) (s s' : Str) :
    (m.ensureSec s).has s' = (decide (s = s') || m.has s') := by
  unfold Model.ensureSec
  by_cases h : m.has s = true
  · rw [if_pos h]
    by_cases e : s = s'
    · subst e; simp [h]
    · simp [e]
  · rw [if_neg h]
    simp only [UMap.has, UMap.get_set]
    by_cases e : s = s' <;> simp [e]

theorem addDef_empty (rx) (sec key : Str) (m : Model) : Model.addDef rx sec key [] m = (.ok false, m) := by
  simp [Model.addDef]

/-- What `AddDef` does in a state in which the storage choice works. -/
theorem addDef_run {rx} (hrx : RxTotal rx) {m : Model} (h : Ready m) {sec key value : Str}
    (hv : value ≠ []) (hp : sec = c!"p" → m.has c!"m" = true ∧ m.has c!"r" = true) :
    ∃ b, hashPossible rx (m.ensureSec sec) = .ok b ∧ Model.addDef rx sec key value m =
      (.ok true, (m.ensureSec sec).put sec key (newAssertion sec key value b)) := by
  obtain ⟨b, hb⟩ := hashPossible_ok hrx (ready_ensureSec (sec := sec) h)
  refine ⟨b, hb, ?_⟩
  have hp' : ¬ (sec = c!"p" ∧ ((m.ensureSec sec).has c!"m" = false ∨
      (m.ensureSec sec).has c!"r" = false)) := by
    rintro ⟨rfl, h⟩
    simp [has_ensureSec, hp rfl] at h
  simp [Model.addDef, M.bind_run, hv, hp', hb]

/-- The main key of definition number `i`. -/
theorem keySuffix_no_colon (i : Nat) : ':' ∉ Model.keySuffix i := by
  unfold Model.keySuffix
  split
  · simp
  · intro h
    have h' : ':' ∈ Nat.toDigits 10 i := by
      have e : (toString i).toList = Nat.toDigits 10 i := Nat.toList_repr
      rwa [e] at h
    exact absurd (Nat.isDigit_of_mem_toDigits (by decide) (by decide) h') (by decide)

theorem keySuffix_inj {i j : Nat}
    (h : Model.keySuffix i = Model.keySuffix j) : i = j := by
  unfold Model.keySuffix at h
  have ne : ∀ k : Nat, (toString k).toList ≠ [] := by
    intro k
    have e : (toString k).toList = Nat.toDigits 10 k := Nat.toList_repr
    rw [e]
    exact Nat.toDigits_ne_nil
  split at h <;> split at h
  · omega
  · exact absurd h.symm (ne _)
  · exact absurd h (ne _)
  · exact Nat.repr_injective (String.toList_inj.mp h)

/-- The five section letters. -/
def Letter (sec : Str) : Prop := sec = c!"m" ∨ sec = c!"r" ∨ sec = c!"p" ∨ sec = c!"g" ∨ sec = c!"e"

theorem get_key (d : Config) {sec : Str} (hl : Letter sec) (i : Nat) :
    Config.get (Model.sectionName sec ++ c!"::" ++ (sec ++ Model.keySuffix i)) d =
      match (d.options (Model.sectionName sec)).get (sec ++ Model.keySuffix i) with
      | some v => v
      | none => [] := by
  apply get_qualified
  · rcases hl with rfl | rfl | rfl | rfl | rfl <;> decide
  · have h1 : ':' ∉ sec := by rcases hl with rfl | rfl | rfl | rfl | rfl <;> decide
    simp only [List.mem_append, not_or]
    exact ⟨h1, keySuffix_no_colon i⟩

/-- Some number up to the number of options has no definition. -/
theorem exists_undefined (d : Config) {sec : Str} (hl : Letter sec) :
    ∃ j < (d.options (Model.sectionName sec)).length + 1,
      Config.get (Model.sectionName sec ++ c!"::" ++ (sec ++ Model.keySuffix (1 + j))) d = [] := by
  apply Classical.byContradiction
  intro hno
  have hall : ∀ j < (d.options (Model.sectionName sec)).length + 1,
      sec ++ Model.keySuffix (1 + j) ∈ (d.options (Model.sectionName sec)).map Prod.fst := by
    intro j hj
    have h1 : Config.get (Model.sectionName sec ++ c!"::" ++ (sec ++ Model.keySuffix (1 + j))) d ≠ [] :=
      fun h => hno ⟨j, hj, h⟩
    rw [get_key d hl] at h1
    cases hg : (d.options (Model.sectionName sec)).get (sec ++ Model.keySuffix (1 + j)) with
    | none => rw [hg] at h1; exact absurd rfl h1
    | some v => exact UMap.mem_keys_of_get hg
  have hnd : ((List.range ((d.options (Model.sectionName sec)).length + 1)).map
      fun j => sec ++ Model.keySuffix (1 + j)).Nodup := by
    refine List.Nodup.map_on ?_ List.nodup_range
    intro x _ y _ h
    have := keySuffix_inj (List.append_cancel_left h)
    omega
  have hsub : ((List.range ((d.options (Model.sectionName sec)).length + 1)).map
      fun j => sec ++ Model.keySuffix (1 + j)) ⊆ (d.options (Model.sectionName sec)).map Prod.fst := by
    intro x hx
    obtain ⟨j, hj, rfl⟩ := List.mem_map.mp hx
    exact hall j (List.mem_range.mp hj)
  have := (List.subperm_of_subset hnd hsub).length_le
  simp at this
  omega

theorem loadSectionFrom_enough (rx) (d : Config) (sec : Str) (k : Nat) : ∀ fuel i,
    (∃ j < fuel, Config.get (Model.sectionName sec ++ c!"::" ++ (sec ++ Model.keySuffix (i + j))) d = []) →
    ∀ m, Model.loadSectionFrom rx d sec (fuel + k) i m = Model.loadSectionFrom rx d sec fuel i m := by
  intro fuel
  induction fuel with
  | zero => rintro i ⟨j, hj, _⟩; omega
  | succ n ih =>
    rintro i ⟨j, hj, he⟩ m
    rw [show n + 1 + k = n + k + 1 by omega, Model.loadSectionFrom, Model.loadSectionFrom,
      M.bind_run, M.bind_run]
    cases j with
    | zero =>
      have hla : Model.loadAssertion rx d sec (sec ++ Model.keySuffix i) m = (.ok false, m) := by
        unfold Model.loadAssertion
        rw [show i = i + 0 from rfl, he, addDef_empty]
      rw [hla]
      simp
    | succ j =>
      rcases Model.loadAssertion rx d sec (sec ++ Model.keySuffix i) m with ⟨(b | e | u), m1⟩
      · cases b with
        | false => simp
        | true =>
          simp only [if_true]
          exact ih (i + 1) ⟨j, by omega, by rw [show i + 1 + j = i + (j + 1) by omega]; exact he⟩ m1
      · rfl
      · rfl

/-- The bound on the rounds of `LoadSection` is no restriction: any larger one gives the same. -/
theorem loadSection_terminates (rx) (d : Config) {sec : Str} (hl : Letter sec) (k : Nat) (m : Model) :
    Model.loadSectionFrom rx d sec ((d.options (Model.sectionName sec)).length + 1 + k) 1 m =
      Model.loadSection rx d sec m :=
  loadSectionFrom_enough rx d sec k _ 1 (exists_undefined d hl) m

/-- What loading a section changes. -/
structure Loaded (d : Config) (sec : Str) (i : Nat) (m m' : Model) : Prop where
  ready : Ready m'
  other : ∀ s ≠ sec, (∀ t, m'.find s t = m.find s t) ∧ m'.has s = m.has s
  kept : ∀ t, (m.find sec t).isSome → (m'.find sec t).isSome
  has : m.has sec = true → m'.has sec = true
  first : ∀ v, v = Config.get (Model.sectionName sec ++ c!"::" ++ (sec ++ Model.keySuffix i)) d →
    (v = [] → m' = m) ∧ (v ≠ [] → m'.has sec = true ∧
      ∃ b, m'.find sec (sec ++ Model.keySuffix i) = some (newAssertion sec (sec ++ Model.keySuffix i) v b))

theorem loadSectionFrom_run {rx} (hrx : RxTotal rx) (d : Config) {sec : Str} : ∀ fuel i, 1 ≤ i →
    (∃ j < fuel, Config.get (Model.sectionName sec ++ c!"::" ++ (sec ++ Model.keySuffix (i + j))) d = []) →
    ∀ m, Ready m → (sec = c!"p" → m.has c!"m" = true ∧ m.has c!"r" = true) →
      (sec = c!"r" → (m.find c!"m" c!"m").isSome) →
      ∃ m', Model.loadSectionFrom rx d sec fuel i m = (.ok (), m') ∧ Loaded d sec i m m' ∧
        ∀ k, 1 ≤ k → k < i → m'.find sec (sec ++ Model.keySuffix k) = m.find sec (sec ++ Model.keySuffix k) := by
  intro fuel
  induction fuel with
  | zero => rintro i hi ⟨j, hj, _⟩; omega
  | succ n ih =>
    rintro i hi ⟨j, hj, he⟩ m hm hp hr
    generalize hv : Config.get (Model.sectionName sec ++ c!"::" ++ (sec ++ Model.keySuffix i)) d = v
    by_cases hv0 : v = []
    · subst hv0
      refine ⟨m, ?_, ⟨hm, fun s _ => ⟨fun t => rfl, rfl⟩, fun t h => h, fun h => h, ?_⟩, fun k _ _ => rfl⟩
      · rw [Model.loadSectionFrom, M.bind_run]
        unfold Model.loadAssertion
        rw [hv, addDef_empty]
        simp
      · intro v hv'
        rw [hv] at hv'
        subst hv'
        exact ⟨fun _ => rfl, fun h => absurd rfl h⟩
    · obtain ⟨b, hb, hrun⟩ := addDef_run hrx hm (key := sec ++ Model.keySuffix i) hv0 hp
      cases j with
      | zero => exact absurd (hv.symm.trans he) hv0
      | succ j =>
        generalize hm1 : (m.ensureSec sec).put sec (sec ++ Model.keySuffix i)
          (newAssertion sec (sec ++ Model.keySuffix i) v b) = m1 at hrun
        have hfind : ∀ s t, m1.find s t = if sec = s ∧ sec ++ Model.keySuffix i = t
            then some (newAssertion sec (sec ++ Model.keySuffix i) v b) else m.find s t := by
          intro s t
          rw [← hm1, Model.find_put, Model.find_ensureSec]
        have hhas : ∀ s, m1.has s = (decide (sec = s) || m.has s) := by
          intro s
          rw [← hm1, has_put, has_ensureSec]
          cases decide (sec = s) <;> simp
        have hready : Ready m1 := by
          rw [← hm1]
          refine ready_put (ready_ensureSec hm) ?_
          rw [Model.find_ensureSec]
          exact hr
        obtain ⟨m', h1, h2, h3⟩ := ih (i + 1) (by omega)
          ⟨j, by omega, by rw [show i + 1 + j = i + (j + 1) by omega]; exact he⟩ m1 hready
          (fun e => by rw [hhas, hhas, (hp e).1, (hp e).2]; simp)
          (fun e => by
            rw [hfind]
            split
            · rfl
            · exact hr e)
        refine ⟨m', ?_, ⟨h2.ready, ?_, ?_, ?_, ?_⟩, ?_⟩
        · rw [Model.loadSectionFrom, M.bind_run]
          unfold Model.loadAssertion
          rw [hv, hrun]
          simpa using h1
        · intro s hs
          have hs' : ¬ sec = s := fun e => hs e.symm
          refine ⟨fun t => ?_, ?_⟩
          · rw [(h2.other s hs).1, hfind, if_neg (fun h => hs' h.1)]
          · rw [(h2.other s hs).2, hhas]; simp [hs']
        · intro t ht
          refine h2.kept t ?_
          rw [hfind]
          split
          · rfl
          · exact ht
        · intro h
          exact h2.has (by rw [hhas, h]; simp)
        · intro w hw
          rw [hv] at hw
          subst hw
          refine ⟨fun h => absurd h hv0, fun _ => ⟨h2.has (by rw [hhas]; simp), b, ?_⟩⟩
          rw [h3 i hi (by omega), hfind, if_pos ⟨rfl, rfl⟩]
        · intro k hk1 hk2
          rw [h3 k hk1 (by omega), hfind, if_neg]
          rintro ⟨_, h⟩
          have := keySuffix_inj (List.append_cancel_left h)
          omega

theorem loadSection_run {rx} (hrx : RxTotal rx) (d : Config) {sec : Str} (hl : Letter sec) {m : Model}
    (hm : Ready m) (hp : sec = c!"p" → m.has c!"m" = true ∧ m.has c!"r" = true)
    (hr : sec = c!"r" → (m.find c!"m" c!"m").isSome) :
    ∃ m', Model.loadSection rx d sec m = (.ok (), m') ∧ Loaded d sec 1 m m' := by
  obtain ⟨m', h1, h2, _⟩ := loadSectionFrom_run hrx d _ 1 (by omega) (exists_undefined d hl) m hm hp hr
  exact ⟨m', h1, h2⟩

/-- Loading a section without a main definition does nothing. -/
theorem loadSection_undefined (rx) (d : Config) {sec : Str} (h : ¬ Defined d sec) (m : Model) :
    Model.loadSection rx d sec m = (.ok (), m) := by
  have h' : Config.get (Model.sectionName sec ++ c!"::" ++ (sec ++ Model.keySuffix 1)) d = [] := by
    have e : sec ++ Model.keySuffix 1 = sec := by simp [Model.keySuffix]
    rw [e]
    exact Classical.not_not.mp h
  unfold Model.loadSection
  rw [Model.loadSectionFrom, M.bind_run]
  unfold Model.loadAssertion
  rw [h', addDef_empty]
  simp

/-- The effect of loading a section. -/
structure Step (d : Config) (sec : Str) (m m' : Model) : Prop where
  ready : Ready m'
  other : ∀ s ≠ sec, (∀ t, m'.find s t = m.find s t) ∧ m'.has s = m.has s
  has : m'.has sec = true ↔ m.has sec = true ∨ Defined d sec
  found : Defined d sec → (sec = c!"p" → m.has c!"m" = true ∧ m.has c!"r" = true) →
    ∃ b, m'.find sec sec = some (newAssertion sec sec
      (Config.get (Model.sectionName sec ++ c!"::" ++ sec) d) b)

/-- Without matchers or request definition the policy definition is dropped. -/
theorem loadSection_blocked (rx) (d : Config) {m : Model} (hd : Defined d c!"p")
    (hb : ¬ (m.has c!"m" = true ∧ m.has c!"r" = true)) :
    Model.loadSection rx d c!"p" m = (.ok (), m.ensureSec c!"p") := by
  unfold Model.loadSection
  rw [Model.loadSectionFrom, M.bind_run]
  unfold Model.loadAssertion
  rw [show c!"p" ++ Model.keySuffix 1 = c!"p" by simp [Model.keySuffix]]
  unfold Defined at hd
  have hc : (m.ensureSec c!"p").has c!"m" = false ∨ (m.ensureSec c!"p").has c!"r" = false := by
    rw [has_ensureSec, has_ensureSec]
    simp only [Bool.or_eq_false_iff]
    cases h1 : m.has c!"m" with
    | false => exact .inl ⟨by decide, rfl⟩
    | true =>
      cases h2 : m.has c!"r" with
      | false => exact .inr ⟨by decide, rfl⟩
      | true => exact absurd ⟨h1, h2⟩ hb
  have : Model.addDef rx c!"p" c!"p"
      (Config.get (Model.sectionName c!"p" ++ c!"::" ++ c!"p") d) m =
      (.ok false, m.ensureSec c!"p") := by
    unfold Model.addDef
    rw [if_neg hd]
    simp [M.bind_run, hc]
  rw [this]
  simp

theorem loadSection_step {rx} (hrx : RxTotal rx) (d : Config) {sec : Str} (hl : Letter sec) {m : Model}
    (hm : Ready m) (hr : sec = c!"r" → Defined d c!"r" → (m.find c!"m" c!"m").isSome) :
    ∃ m', Model.loadSection rx d sec m = (.ok (), m') ∧ Step d sec m m' := by
  have e : sec ++ Model.keySuffix 1 = sec := by simp [Model.keySuffix]
  by_cases hd : Defined d sec
  · by_cases hp : sec = c!"p" ∧ ¬ (m.has c!"m" = true ∧ m.has c!"r" = true)
    · obtain ⟨rfl, hb⟩ := hp
      refine ⟨m.ensureSec c!"p", ?_, ready_ensureSec hm, ?_, ?_, ?_⟩
      · exact loadSection_blocked rx d hd hb
      · intro s hs
        refine ⟨fun t => Model.find_ensureSec _ _ _ _, ?_⟩
        rw [has_ensureSec]
        simp [Ne.symm hs]
      · rw [has_ensureSec]; simp [hd]
      · intro _ h; exact absurd (h rfl) hb
    · have hp' : sec = c!"p" → m.has c!"m" = true ∧ m.has c!"r" = true := by
        intro h
        exact Classical.byContradiction fun h' => hp ⟨h, h'⟩
      obtain ⟨m', h1, h2⟩ := loadSection_run hrx d hl hm hp' (fun h => hr h (h ▸ hd))
      have hf := (h2.first _ rfl).2 (by rw [e]; exact hd)
      rw [e] at hf
      exact ⟨m', h1, h2.ready, h2.other, ⟨fun _ => .inr hd, fun _ => hf.1⟩, fun _ _ => hf.2⟩
  · exact ⟨m, loadSection_undefined rx d hd m, hm, fun s _ => ⟨fun _ => rfl, rfl⟩,
      ⟨.inl, fun h => h.resolve_right hd⟩, fun h => absurd h hd⟩

theorem addDef_has_other (rx) {sec s : Str} (hs : s ≠ sec) (key value : Str) (m : Model) :
    ((Model.addDef rx sec key value m).2).has s = m.has s := by
  unfold Model.addDef
  split
  · rfl
  · simp only [M.bind_run, M.modify_run, M.get_run]
    split
    · simp [has_ensureSec, Ne.symm hs]
    · rw [M.bind_run]
      cases hashPossible rx (m.ensureSec sec) <;>
        simp [M.bind_run, has_put, has_ensureSec, Ne.symm hs]

theorem loadSectionFrom_has_other (rx) (d : Config) {sec s : Str} (hs : s ≠ sec) : ∀ fuel i (m : Model),
    ((Model.loadSectionFrom rx d sec fuel i m).2).has s = m.has s := by
  intro fuel
  induction fuel with
  | zero => intro i m; rfl
  | succ n ih =>
    intro i m
    rw [Model.loadSectionFrom, M.bind_run]
    have h := addDef_has_other rx hs (sec ++ Model.keySuffix i)
      (Config.get (Model.sectionName sec ++ c!"::" ++ (sec ++ Model.keySuffix i)) d) m
    unfold Model.loadAssertion
    generalize Model.addDef rx sec (sec ++ Model.keySuffix i)
      (Config.get (Model.sectionName sec ++ c!"::" ++ (sec ++ Model.keySuffix i)) d) m = q at h ⊢
    obtain ⟨(b | e | u), m1⟩ := q
    · cases b with
      | false => simpa using h
      | true => simp only [if_true]; rw [ih]; exact h
    · exact h
    · exact h

theorem loadSections_has (rx) (d : Config) {s : Str} (hd : ¬ Defined d s) : ∀ (ss : List Str) (m : Model),
    ((Model.loadSections rx d ss m).2).has s = m.has s := by
  intro ss
  induction ss with
  | nil => intro m; rfl
  | cons x ss ih =>
    intro m
    rw [Model.loadSections, M.bind_run]
    have h : ((Model.loadSection rx d x m).2).has s = m.has s := by
      by_cases hx : s = x
      · subst hx; rw [loadSection_undefined rx d hd]
      · exact loadSectionFrom_has_other rx d hx _ _ m
    generalize Model.loadSection rx d x m = q at h ⊢
    obtain ⟨(b | e | u), m1⟩ := q
    · simp only; rw [ih]; exact h
    · exact h
    · exact h

/-- A request definition without matchers: the storage choice throws. -/
theorem addDef_noMatcher (rx) {m : Model} {a : Assertion} (hr : m.find c!"r" c!"r" = some a)
    (hm : m.find c!"m" c!"m" = none) {sec value : Str} (hv : value ≠ []) (hs : sec ≠ c!"p") (key : Str) :
    Model.addDef rx sec key value m = (.throw .outOfRange, m.ensureSec sec) := by
  have : hashPossible rx (m.ensureSec sec) = .throw .outOfRange := by
    unfold hashPossible
    rw [Model.find_ensureSec, Model.find_ensureSec, hr, hm]
  simp [Model.addDef, M.bind_run, hv, hs, this]

theorem loadSection_noMatcher (rx) (d : Config) {m : Model} {a : Assertion}
    (hr : m.find c!"r" c!"r" = some a) (hm : m.find c!"m" c!"m" = none) {sec : Str}
    (hd : Defined d sec) (hs : sec ≠ c!"p") :
    (Model.loadSection rx d sec m).1 = .throw .outOfRange := by
  unfold Model.loadSection
  rw [Model.loadSectionFrom, M.bind_run]
  unfold Model.loadAssertion
  rw [show sec ++ Model.keySuffix 1 = sec by simp [Model.keySuffix], addDef_noMatcher rx hr hm hd hs]

theorem loadSection_r_noMatcher (rx) (d : Config) (hd : Defined d c!"r") :
    (Model.loadSection rx d c!"r" []).1 = .throw .outOfRange ∨
    ∃ m a, Model.loadSection rx d c!"r" [] = (.ok (), m) ∧ m.find c!"r" c!"r" = some a ∧
      m.find c!"m" c!"m" = none ∧ m.has c!"m" = false := by
  obtain ⟨j, hj, he⟩ := exists_undefined d (sec := c!"r") (.inr (.inl rfl))
  have e : c!"r" ++ Model.keySuffix 1 = c!"r" := by simp [Model.keySuffix]
  cases j with
  | zero => rw [show 1 + 0 = 1 from rfl, e] at he; exact absurd he hd
  | succ j =>
    unfold Model.loadSection
    obtain ⟨n, hn⟩ : ∃ n, (d.options (Model.sectionName c!"r")).length = n + 1 :=
      ⟨(d.options (Model.sectionName c!"r")).length - 1, by omega⟩
    rw [hn, Model.loadSectionFrom, M.bind_run]
    generalize hv : Config.get (Model.sectionName c!"r" ++ c!"::" ++ c!"r") d = v
    have hv0 : v ≠ [] := hv ▸ hd
    have h1 : Model.loadAssertion rx d c!"r" (c!"r" ++ Model.keySuffix 1) [] = (.ok true,
        Model.put (Model.ensureSec [] c!"r") c!"r" c!"r" (newAssertion c!"r" c!"r" v false)) := by
      unfold Model.loadAssertion
      rw [e, hv]
      have : hashPossible rx (Model.ensureSec [] c!"r") = .ok false := rfl
      simp [Model.addDef, M.bind_run, hv0, this]
    rw [h1]
    simp only [if_true]
    generalize hm1 : Model.put (Model.ensureSec [] c!"r") c!"r" c!"r"
      (newAssertion c!"r" c!"r" v false) = m1
    have hf : m1.find c!"r" c!"r" = some (newAssertion c!"r" c!"r" v false) := by
      rw [← hm1, Model.find_put, if_pos ⟨rfl, rfl⟩]
    have hm : m1.find c!"m" c!"m" = none := by
      rw [← hm1, Model.find_put, if_neg (by simp), Model.find_ensureSec]; rfl
    have hh : m1.has c!"m" = false := by
      rw [← hm1, has_put, has_ensureSec]; decide
    rw [Model.loadSectionFrom, M.bind_run]
    unfold Model.loadAssertion
    by_cases h2 : Config.get (Model.sectionName c!"r" ++ c!"::" ++ (c!"r" ++ Model.keySuffix 2)) d = []
    · right
      refine ⟨m1, _, ?_, hf, hm, hh⟩
      rw [show (1 + 1 : Nat) = 2 from rfl, h2, addDef_empty]
      simp
    · left
      rw [show (1 + 1 : Nat) = 2 from rfl, addDef_noMatcher rx hf hm h2 (by decide)]

instance : DecidableEq (Outcome Model) :=
  @instDecidableEqOutcome Model (inferInstanceAs (DecidableEq (List (Str × List (Str × Assertion)))))

/-! ## C59 -/

/-- A series of `AddDef` calls, each with its section, key and value. -/
def addDefs (rx : Str → Str → Outcome Str) : List (Str × Str × Str) → M Model Unit
  | [] => pure ()
  | x :: xs => do
    let _ ← Model.addDef rx x.1 x.2.1 x.2.2
    addDefs rx xs

/-- The same content. -/
def SameModel (m m' : Model) : Prop := ∀ s, m.has s = m'.has s ∧ ∀ t, m.find s t = m'.find s t

/-- A definition the storage choice does not depend on. -/
def Free (m : Model) (x : Str × Str × Str) : Prop :=
  (x.1, x.2.1) ≠ (c!"r", c!"r") ∧ (x.1, x.2.1) ≠ (c!"m", c!"m") ∧
    (x.1 = c!"g" → m.has c!"g" = true)

theorem hashPossible_congr (rx) {m m' : Model} (hr : m.find c!"r" c!"r" = m'.find c!"r" c!"r")
    (hm : m.find c!"m" c!"m" = m'.find c!"m" c!"m") (hg : m.has c!"g" = m'.has c!"g") :
    hashPossible rx m = hashPossible rx m' := by
  unfold hashPossible
  rw [hr, hm, hg]

theorem addDefs_run {rx} (hrx : RxTotal rx) {b : Bool} : ∀ (ds : List (Str × Str × Str)) (m : Model),
    (m.find c!"r" c!"r").isSome → (m.find c!"m" c!"m").isSome → Ready m → hashPossible rx m = .ok b →
    (ds.map fun x => (x.1, x.2.1)).Nodup → (∀ x ∈ ds, Free m x) →
    ∃ m', addDefs rx ds m = (.ok (), m') ∧
      (∀ s, m'.has s = true ↔ m.has s = true ∨ ∃ t v, (s, t, v) ∈ ds ∧ v ≠ []) ∧
      ∀ s t a, m'.find s t = some a ↔ (∃ v, (s, t, v) ∈ ds ∧ v ≠ [] ∧ a = newAssertion s t v b) ∨
        ((∀ v, (s, t, v) ∈ ds → v = []) ∧ m.find s t = some a) := by
  intro ds
  induction ds with
  | nil =>
    intro m _ _ _ _ _ _
    exact ⟨m, rfl, by simp, by simp⟩
  | cons x ds ih =>
    obtain ⟨s0, t0, v0⟩ := x
    intro m hr hm hready hb hnd hfree
    rw [List.map_cons, List.nodup_cons] at hnd
    have hnot : ∀ v, (s0, t0, v) ∉ ds := by
      intro v hv
      exact hnd.1 (List.mem_map.mpr ⟨_, hv, rfl⟩)
    by_cases hv0 : v0 = []
    · subst hv0
      obtain ⟨m', h1, h2, h3⟩ := ih m hr hm hready hb hnd.2 fun x hx => hfree x (by simp [hx])
      refine ⟨m', ?_, ?_, ?_⟩
      · rw [addDefs, M.bind_run, addDef_empty]; exact h1
      · intro s
        rw [h2]
        constructor
        · rintro (h | ⟨t, v, h, hv⟩)
          · exact .inl h
          · exact .inr ⟨t, v, by simp [h], hv⟩
        · rintro (h | ⟨t, v, h, hv⟩)
          · exact .inl h
          · rcases List.mem_cons.mp h with h | h
            · cases h; exact absurd rfl hv
            · exact .inr ⟨t, v, h, hv⟩
      · intro s t a
        rw [h3]
        constructor
        · rintro (⟨v, h, hv, ha⟩ | ⟨h, ha⟩)
          · exact .inl ⟨v, by simp [h], hv, ha⟩
          · refine .inr ⟨fun v hv => ?_, ha⟩
            rcases List.mem_cons.mp hv with hv | hv
            · cases hv; rfl
            · exact h v hv
        · rintro (⟨v, h, hv, ha⟩ | ⟨h, ha⟩)
          · rcases List.mem_cons.mp h with h | h
            · cases h; exact absurd rfl hv
            · exact .inl ⟨v, h, hv, ha⟩
          · exact .inr ⟨fun v hv => h v (by simp [hv]), ha⟩
    · have hf0 := hfree _ (List.mem_cons_self ..)
      have hsome : ∀ {s t}, (m.find s t).isSome → m.has s = true := by
        intro s t h
        unfold Model.find at h
        unfold UMap.has
        cases hg : m.get s with
        | none => rw [hg] at h; cases h
        | some am => rfl
      obtain ⟨b', hb', hrun⟩ := addDef_run hrx hready (sec := s0) (key := t0) hv0
        fun _ => ⟨hsome hm, hsome hr⟩
      have hgs : (m.ensureSec s0).has c!"g" = m.has c!"g" := by
        rw [has_ensureSec]
        by_cases e : s0 = c!"g"
        · simp [e, hf0.2.2 e]
        · simp [e]
      have hbb : b' = b := by
        rw [hashPossible_congr rx (m' := m) (Model.find_ensureSec _ _ _ _)
          (Model.find_ensureSec _ _ _ _) hgs, hb] at hb'
        cases hb'; rfl
      subst hbb
      generalize hm1 : (m.ensureSec s0).put s0 t0 (newAssertion s0 t0 v0 b') = m1 at hrun
      have hfind : ∀ s t, m1.find s t = if s0 = s ∧ t0 = t
          then some (newAssertion s0 t0 v0 b') else m.find s t := by
        intro s t
        rw [← hm1, Model.find_put, Model.find_ensureSec]
      have hhas : ∀ s, m1.has s = (decide (s0 = s) || m.has s) := by
        intro s
        rw [← hm1, has_put, has_ensureSec]
        cases decide (s0 = s) <;> simp
      have hrr : m1.find c!"r" c!"r" = m.find c!"r" c!"r" := by
        rw [hfind, if_neg]; rintro ⟨rfl, rfl⟩; exact hf0.1 rfl
      have hmm : m1.find c!"m" c!"m" = m.find c!"m" c!"m" := by
        rw [hfind, if_neg]; rintro ⟨rfl, rfl⟩; exact hf0.2.1 rfl
      have hgg : m1.has c!"g" = m.has c!"g" := by
        rw [hhas]
        by_cases e : s0 = c!"g"
        · simp [e, hf0.2.2 e]
        · simp [e]
      have hready1 : Ready m1 := by
        intro a ha
        rw [hrr] at ha
        rw [hmm]
        exact hready a ha
      obtain ⟨m', h1, h2, h3⟩ := ih m1 (by rw [hrr]; exact hr) (by rw [hmm]; exact hm) hready1
        (by rw [hashPossible_congr rx hrr hmm hgg, hb]) hnd.2
        fun x hx => by
          obtain ⟨f1, f2, f3⟩ := hfree x (by simp [hx])
          exact ⟨f1, f2, fun e => by rw [hgg]; exact f3 e⟩
      refine ⟨m', ?_, ?_, ?_⟩
      · rw [addDefs, M.bind_run, hrun]; exact h1
      · intro s
        rw [h2, hhas]
        constructor
        · rintro (h | ⟨t, v, h, hv⟩)
          · by_cases e : s0 = s
            · subst e; exact .inr ⟨t0, v0, by simp, hv0⟩
            · simp [e] at h; exact .inl h
          · exact .inr ⟨t, v, by simp [h], hv⟩
        · rintro (h | ⟨t, v, h, hv⟩)
          · left; simp [h]
          · rcases List.mem_cons.mp h with h | h
            · cases h; left; simp
            · exact .inr ⟨t, v, h, hv⟩
      · intro s t a
        rw [h3, hfind]
        by_cases e : s0 = s ∧ t0 = t
        · obtain ⟨rfl, rfl⟩ := e
          rw [if_pos ⟨rfl, rfl⟩]
          constructor
          · rintro (⟨v, h, _⟩ | ⟨_, h⟩)
            · exact absurd h (hnot v)
            · cases h; exact .inl ⟨v0, by simp, hv0, rfl⟩
          · rintro (⟨v, h, hv, ha⟩ | ⟨h, _⟩)
            · rcases List.mem_cons.mp h with h | h
              · cases h; exact .inr ⟨fun v hv => absurd hv (hnot v), by rw [ha]⟩
              · exact absurd h (hnot v)
            · exact absurd (h v0 (by simp)) hv0
        · rw [if_neg e]
          have hmem : ∀ v, (s, t, v) ∈ (s0, t0, v0) :: ds ↔ (s, t, v) ∈ ds := by
            intro v
            rw [List.mem_cons]
            constructor
            · rintro (h | h)
              · cases h; exact absurd ⟨rfl, rfl⟩ e
              · exact h
            · exact .inr
          simp only [hmem]

end ConfigProps
end Casbin
