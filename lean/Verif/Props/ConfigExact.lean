import Verif.Props.Config

/-! # C55, exactly: any keys, any number of calls of `Set` -/

namespace Casbin
namespace ConfigProps

/-- The text is `a`, then the first two colons in a row, then `b`. -/
def CutAt (key a b : Str) : Prop := key = a ++ c!"::" ++ b ∧ ¬ c!"::" <:+: a ++ c!":"

/-- The section and option a key names: the texts before the first and the second `::`; without
`::` an option of the section `default`. -/
inductive Denotes : Str → Str → Str → Prop
  | plain {key : Str} : ¬ c!"::" <:+: key → Denotes key c!"default" key
  | two {key s o : Str} : CutAt key s o → ¬ c!"::" <:+: o → Denotes key s o
  | more {key s o t u : Str} : CutAt key s t → CutAt t o u → Denotes key s o

/-- Calls of `Set`, one after the other. -/
def setAll : List (Str × Str) → ConfigSt → ConfigSt
  | [], s => s
  | kv :: kvs, s => setAll kvs (ConfigSt.set kv.1 kv.2 s).2

theorem findSub_cut {a b key : Str} (h : CutAt key a b) : findSub c!"::" key = some a.length := by
  obtain ⟨rfl, h⟩ := h
  induction a with
  | nil => simp [findSub, List.isPrefixOf]
  | cons c a ih =>
    have hc : (c!"::").isPrefixOf (c :: (a ++ c!"::" ++ b)) = false := by
      rw [Bool.eq_false_iff]
      intro hp
      rw [List.isPrefixOf_iff_prefix] at hp
      apply h
      obtain ⟨t, ht⟩ := hp
      cases a with
      | nil =>
        simp only [List.cons_append, List.nil_append, List.cons.injEq] at ht
        exact ⟨[], [], by simp [ht.1.symm]⟩
      | cons d a =>
        simp only [List.cons_append, List.nil_append, List.cons.injEq] at ht
        exact ⟨[], a ++ c!":", by simp [ht.1.symm, ht.2.1.symm]⟩
    simp only [List.cons_append, findSub]
    rw [if_neg (by rw [hc]; simp), ih]
    · simp
    · rintro ⟨x, y, hxy⟩
      exact h ⟨c :: x, y, by simp [← hxy]⟩

theorem cut_of_findSub {key : Str} {i : Nat} (h : findSub c!"::" key = some i) :
    CutAt key (key.take i) (key.drop (i + 2)) := by
  induction key generalizing i with
  | nil => simp [findSub] at h
  | cons c s ih =>
    simp only [findSub] at h
    split at h
    · next hp =>
      cases h
      rw [List.isPrefixOf_iff_prefix] at hp
      obtain ⟨t, ht⟩ := hp
      refine ⟨by simp [← ht], ?_⟩
      intro hi
      have := hi.length_le
      simp at this
    · next hp =>
      cases hf : findSub c!"::" s with
      | none => rw [hf] at h; simp at h
      | some j =>
        rw [hf] at h
        simp only [Option.map_some, Option.some.injEq] at h
        subst h
        have hc := ih hf
        refine ⟨?_, ?_⟩
        · have h1 := hc.1
          simp only [List.take_succ_cons, List.cons_append]
          rw [show j + 1 + 2 = (j + 2) + 1 from rfl, List.drop_succ_cons]
          exact congrArg (c :: ·) h1
        · rintro ⟨x, y, hxy⟩
          cases x with
          | cons d x =>
            simp only [List.take_succ_cons, List.cons_append, List.cons.injEq] at hxy
            exact hc.2 ⟨x, y, by simpa using hxy.2⟩
          | nil =>
            apply hp
            rw [List.isPrefixOf_iff_prefix]
            have hs := hc.1
            have hpre : List.take j s ++ c!":" <+: s := by
              refine ⟨c!":" ++ s.drop (j + 2), ?_⟩
              conv_rhs => rw [hs]
              simp
            refine List.IsPrefix.trans ⟨y, ?_⟩ (List.cons_prefix_cons.2 ⟨rfl, hpre⟩)
            simpa using hxy

theorem splitLoop_cut {key a b : Str} (h : CutAt key a b) (n : Nat) :
    splitLoop c!"::" (n + 1) key = a :: splitLoop c!"::" n b := by
  rw [splitLoop, findSub_cut h]
  obtain ⟨rfl, -⟩ := h
  simp

theorem splitLoop_whole {key : Str} (h : ¬ c!"::" <:+: key) (n : Nat) :
    splitLoop c!"::" n key = [key] := by
  cases n with
  | zero => rfl
  | succ n => rw [splitLoop, findSub_none.2 h]

theorem keyOfGet_names {key s o : Str} (h : Denotes key s o) : Config.keyOfGet key = (s, o) := by
  unfold Config.keyOfGet
  rw [split_unlimited]
  cases h with
  | plain h => rw [splitLoop_whole h]; rfl
  | two hc h => rw [splitLoop_cut hc, splitLoop_whole h]
  | more hc h => rw [splitLoop_cut hc, splitLoop_cut h]

theorem keyOfSet_names {key s o : Str} (h : Denotes key s o) :
    (if (Config.keyOfSet key).1 = [] then Config.defaultSection else (Config.keyOfSet key).1) =
      (if s = [] then c!"default" else s) ∧ (Config.keyOfSet key).2 = o := by
  unfold Config.keyOfSet
  rw [split_unlimited]
  cases h with
  | plain h => rw [splitLoop_whole h]; simp [Config.defaultSection]
  | two hc h => rw [splitLoop_cut hc, splitLoop_whole h]; simp [Config.defaultSection]
  | more hc h => rw [splitLoop_cut hc, splitLoop_cut h]; simp [Config.defaultSection]

/-- Every key names one section and one option. -/
theorem names_total (key : Str) : ∃ s o, Denotes key s o := by
  cases h : findSub c!"::" key with
  | none => exact ⟨_, _, .plain (findSub_none.1 h)⟩
  | some i =>
    have hc := cut_of_findSub h
    cases h2 : findSub c!"::" (key.drop (i + 2)) with
    | none => exact ⟨_, _, .two hc (findSub_none.1 h2)⟩
    | some j => exact ⟨_, _, .more hc (cut_of_findSub h2)⟩

theorem names_unique {key s o s' o' : Str} (h : Denotes key s o) (h' : Denotes key s' o') :
    s = s' ∧ o = o' := by
  have := (keyOfGet_names h).symm.trans (keyOfGet_names h')
  simpa using this

theorem get_names {key s o : Str} (h : Denotes key s o) (d : Config) :
    Config.get key d = match (d.options s).get o with
      | some v => v
      | none => [] := by
  unfold Config.get
  rw [keyOfGet_names h]
  rfl

theorem get_set_names {key s o key' s' o' : Str} (hk : key ≠ []) (h : Denotes key s o)
    (h' : Denotes key' s' o') (v : Str) (st : ConfigSt) (hl : st.locked = false) :
    Config.get key' (ConfigSt.set key v st).2.data =
      if (if s = [] then c!"default" else s) = s' ∧ o = o' then v
      else Config.get key' st.data := by
  have hs := keyOfSet_names h
  rw [set_run st hl hk, get_names h', get_names h', options_addConfig, hs.1, hs.2]
  by_cases e : (if s = [] then c!"default" else s) = s'
  · by_cases e2 : o = o'
    · subst e2; simp [e]
    · rw [if_pos e, UMap.get_set_ne _ _ e2, if_neg (fun hh => e2 hh.2)]
  · rw [if_neg e, if_neg (fun hh => e hh.1)]

theorem set_locked {key : Str} (v : Str) (st : ConfigSt) (hk : key ≠ []) (hl : st.locked = false) :
    (ConfigSt.set key v st).2.locked = false := by
  rw [set_run st hl hk]
  exact hl

/-- No option lies in the section with the empty name. -/
def NoBlank (d : Config) : Prop := UMap.get d [] = none

theorem addConfig_noBlank (s o v : Str) {d : Config} (h : NoBlank d) :
    NoBlank (Config.addConfig s o v d) := by
  unfold NoBlank Config.addConfig
  simp only
  rw [UMap.get_set_ne _ _ ?_]
  · exact h
  · split
    · simp [Config.defaultSection]
    · assumption

theorem parseLine_noBlank {l : Str} {st st' : Str × Config}
    (h : Config.parseLine l st = .ok st') (hd : NoBlank st.2) : NoBlank st'.2 := by
  have hk := parseLine_cases l st
  rcases line_kind l with hs | ⟨s, hh⟩ | ⟨o, w, ha⟩ | hb
  · rw [hk.1 hs] at h; cases h; exact hd
  · rw [hk.2.1 s hh] at h; cases h; exact hd
  · rw [hk.2.2.1 o w ha] at h; cases h; exact addConfig_noBlank _ _ _ hd
  · rw [hk.2.2.2 hb] at h; cases h

theorem parseLines_noBlank {ls : List Str} : ∀ {st st' : Str × Config},
    Config.parseLines ls st = .ok st' → NoBlank st.2 → NoBlank st'.2 := by
  induction ls with
  | nil => intro st st' h hd; cases h; exact hd
  | cons l ls ih =>
    intro st st' h hd
    unfold Config.parseLines at h
    cases hp : Config.parseLine l st with
    | ok st1 => rw [hp] at h; exact ih h (parseLine_noBlank hp hd)
    | throw e => rw [hp] at h; cases h
    | ub u => rw [hp] at h; cases h

theorem parseText_noBlank {text : Str} {d : Config} (h : Config.parseText text = .ok d) :
    NoBlank d := by
  unfold Config.parseText at h
  cases hp : Config.parseLines (getLines text) ([], []) with
  | ok st =>
    rw [hp] at h
    cases h
    exact parseLines_noBlank hp rfl
  | throw e => rw [hp] at h; cases h
  | ub u => rw [hp] at h; cases h

theorem setAll_keeps {sets : List (Str × Str)} : ∀ {st : ConfigSt},
    (∀ kv ∈ sets, kv.1 ≠ []) → st.locked = false → NoBlank st.data →
    (setAll sets st).locked = false ∧ NoBlank (setAll sets st).data := by
  induction sets with
  | nil => intro st _ hl hd; exact ⟨hl, hd⟩
  | cons kv kvs ih =>
    intro st hk hl hd
    have hkv := hk kv (by simp)
    refine ih (fun x hx => hk x (by simp [hx])) (set_locked _ _ hkv hl) ?_
    rw [set_run st hl hkv]
    exact addConfig_noBlank _ _ _ hd

theorem setAll_append (xs ys : List (Str × Str)) (st : ConfigSt) :
    setAll (xs ++ ys) st = setAll ys (setAll xs st) := by
  induction xs generalizing st with
  | nil => rfl
  | cons x xs ih => exact ih _

/-- A call of `Set` with this key writes the option `o` of the section `s`: the empty section of a
key is the section `default`. -/
def WritesOption (k s o : Str) : Prop :=
  ∃ s', Denotes k s' o ∧ s = if s' = [] then c!"default" else s'

theorem get_setAll_other {sets : List (Str × Str)} {key s o : Str} (h : Denotes key s o) :
    ∀ {st : ConfigSt}, (∀ kv ∈ sets, kv.1 ≠ []) → st.locked = false →
      (∀ kv ∈ sets, ¬ WritesOption kv.1 s o) →
      Config.get key (setAll sets st).data = Config.get key st.data := by
  induction sets with
  | nil => intro st _ _ _; rfl
  | cons kv kvs ih =>
    intro st hk hl hw
    have hkv := hk kv (by simp)
    have e := ih (fun x hx => hk x (by simp [hx])) (set_locked kv.2 st hkv hl)
      (fun x hx => hw x (by simp [hx]))
    refine e.trans ?_
    obtain ⟨s', o', hn⟩ := names_total kv.1
    rw [get_set_names hkv hn h kv.2 st hl, if_neg]
    rintro ⟨h1, rfl⟩
    exact hw kv (by simp) ⟨s', hn, h1.symm⟩

/-- C55, exactly: after the reading of any text and any calls of `Set`, `Get` of a key gives the
value of the last call that wrote the option the key names, and what the text gives if there is
none; a key that begins with `::` names an option that no call writes, and gives nothing. -/
theorem C55_history {text : Str} {d : Config} (ht : Config.parseText text = .ok d)
    (sets : List (Str × Str)) (hk : ∀ kv ∈ sets, kv.1 ≠ []) {key s o : Str}
    (h : Denotes key s o) :
    (setAll sets { locked := false, data := d }).locked = false ∧
    (∀ pre k v post, sets = pre ++ (k, v) :: post → WritesOption k s o →
      (∀ kv ∈ post, ¬ WritesOption kv.1 s o) →
      Config.get key (setAll sets { locked := false, data := d }).data = v) ∧
    ((∀ kv ∈ sets, ¬ WritesOption kv.1 s o) →
      Config.get key (setAll sets { locked := false, data := d }).data = Config.get key d) ∧
    (c!"::" <+: key →
      Config.get key (setAll sets { locked := false, data := d }).data = []) := by
  have hkeep := setAll_keeps (st := { locked := false, data := d }) hk rfl (parseText_noBlank ht)
  refine ⟨hkeep.1, ?_, fun hw => get_setAll_other h hk rfl hw, ?_⟩
  · rintro pre k v post rfl ⟨s', hn, hs⟩ hw
    rw [setAll_append]
    have hpre := setAll_keeps (sets := pre) (st := { locked := false, data := d })
      (fun x hx => hk x (by simp [hx])) rfl (parseText_noBlank ht)
    have hk1 : k ≠ [] := hk (k, v) (by simp)
    rw [show setAll ((k, v) :: post) (setAll pre { locked := false, data := d }) =
      setAll post (ConfigSt.set k v (setAll pre { locked := false, data := d })).2 from rfl,
      get_setAll_other h (fun x hx => hk x (by simp [hx])) (set_locked v _ hk1 hpre.1) hw,
      get_set_names hk1 hn h v _ hpre.1, if_pos ⟨hs.symm, rfl⟩]
  · rintro ⟨t, rfl⟩
    have hcut : CutAt (c!"::" ++ t) [] t := by
      refine ⟨by simp, fun hi => ?_⟩
      have := hi.length_le
      simp at this
    have hs : s = [] := by
      cases h with
      | plain hn => exact absurd ⟨[], t, by simp⟩ hn
      | two hc _ =>
        have := (findSub_cut hc).symm.trans (findSub_cut hcut)
        simpa using this
      | more hc _ =>
        have := (findSub_cut hc).symm.trans (findSub_cut hcut)
        simpa using this
    subst hs
    rw [get_names h]
    have hb := hkeep.2
    unfold NoBlank at hb
    simp [Config.options, hb]

/-- C55, one call: reading an option after setting it gives the value exactly when the key does
not begin with `::`, or the value is empty. -/
theorem C55_exact {text : Str} {d : Config} (ht : Config.parseText text = .ok d) {key : Str}
    (hk : key ≠ []) (v : Str) :
    Config.get key (ConfigSt.set key v { locked := false, data := d }).2.data = v ↔
      ¬ c!"::" <+: key ∨ v = [] := by
  by_cases hp : c!"::" <+: key
  · obtain ⟨s, o, hn⟩ := names_total key
    have := (C55_history ht [(key, v)] (by simpa using hk) hn).2.2.2 hp
    rw [show (ConfigSt.set key v { locked := false, data := d }).2 =
      setAll [(key, v)] { locked := false, data := d } from rfl, this]
    simp [hp, eq_comm]
  · exact ⟨fun _ => .inl hp, fun _ => (C55_roundTrip_partial _ rfl hk hp v).2.2⟩

/-- Non-vacuity: a text, three calls, and four keys, one with three parts and one with an empty
section. -/
example : ∃ d, Config.parseText c!"[a]\nb = 0\n" = .ok d ∧
    (let st := setAll [(c!"a::b", c!"1"), (c!"x", c!"2"), (c!"::y", c!"3")]
      { locked := false, data := d }
    Config.get c!"a::b::c" st.data = c!"1" ∧ Config.get c!"default::x" st.data = c!"2" ∧
      Config.get c!"y" st.data = c!"3" ∧ Config.get c!"::y" st.data = []) := by
  refine ⟨_, rfl, ?_⟩
  decide +kernel

example : Denotes c!"a::b::c" c!"a" c!"b" ∧ WritesOption c!"::y" c!"default" c!"y" := by
  refine ⟨.more (t := c!"b::c") (u := c!"c") ⟨rfl, by decide⟩ ⟨rfl, by decide⟩,
    [], .two ⟨rfl, by decide⟩ (by decide), by simp⟩

end ConfigProps
end Casbin
