import Verif.ConfigLemmas


/-! # C55–C59: configuration texts and model definitions -/

namespace Casbin
namespace ConfigProps

/-! ## C55 -/

/-- C55: reading an option after setting it gives the value, for every key; other options keep
their values. Missing: keys that begin with `::` (`C55_fails`). -/
theorem C55_roundTrip_partial (s : ConfigSt) (h : s.locked = false) {key : Str} (hk : key ≠ [])
    (hp : ¬ c!"::" <+: key) (v : Str) :
    (ConfigSt.set key v s).1 = .ok () ∧ (ConfigSt.set key v s).2.locked = false ∧
      Config.get key (ConfigSt.set key v s).2.data = v := by
  rw [set_run s h hk]
  refine ⟨rfl, h, ?_⟩
  have key_eq : (if (Config.keyOfSet key).1 = [] then Config.defaultSection
      else (Config.keyOfSet key).1) = (Config.keyOfGet key).1 ∧
      (Config.keyOfSet key).2 = (Config.keyOfGet key).2 := by
    unfold Config.keyOfSet Config.keyOfGet
    rw [split_unlimited]
    generalize splitLARGE - 3 = n
    rw [splitLoop]
    cases hf : findSub c!"::" key with
    | none => simp
    | some i =>
      have hi : key.take i ≠ [] := by
        intro h0
        have := findSub_some hf
        rw [h0] at this
        exact hp ⟨_, by simpa using this.symm⟩
      simp only
      cases hr : splitLoop c!"::" (n + 1) (key.drop (i + c!"::".length)) with
      | nil => exact absurd hr (splitLoop_ne_nil _ _ _)
      | cons o rest => simp [hi]
  unfold Config.get
  rw [options_addConfig, if_pos key_eq.1, key_eq.2]
  simp

theorem C55_others_partial (s : ConfigSt) (h : s.locked = false) {sec opt sec' opt' : Str}
    (hne : sec ≠ []) (hs : ':' ∉ sec) (ho : ':' ∉ opt) (hs' : ':' ∉ sec') (ho' : ':' ∉ opt')
    (hd : (sec', opt') ≠ (sec, opt)) (v : Str) :
    Config.get (sec' ++ c!"::" ++ opt') (ConfigSt.set (sec ++ c!"::" ++ opt) v s).2.data =
      Config.get (sec' ++ c!"::" ++ opt') s.data := by
  rw [set_run s h (by simp), get_qualified hs' ho', get_qualified hs' ho']
  simp only [Config.keyOfSet, split_qualified hs ho]
  rw [options_addConfig, if_neg hne]
  by_cases e : sec = sec'
  · subst e
    have : opt ≠ opt' := fun e => hd (by rw [e])
    rw [if_pos rfl, UMap.get_set_ne _ _ this]
  · rw [if_neg e]

/-- C55 is false for a key with an empty section. -/
theorem C55_fails : ¬ ∀ (s : ConfigSt) (key v : Str), s.locked = false → key ≠ [] →
    Config.get key (ConfigSt.set key v s).2.data = v := by
  intro h
  exact absurd (h { locked := false, data := [] } c!"::a" c!"1" rfl (by decide)) (by decide +kernel)

/-- Non-vacuity of C55. -/
example : Config.get c!"a::b" (ConfigSt.set c!"a::b" c!"1"
      { locked := false, data := [(c!"a", [(c!"b", c!"0"), (c!"c", c!"2")])] }).2.data = c!"1" ∧
    Config.get c!"a::c" (ConfigSt.set c!"a::b" c!"1"
      { locked := false, data := [(c!"a", [(c!"b", c!"0"), (c!"c", c!"2")])] }).2.data = c!"2" := by
  decide +kernel

/-! ## C56 -/

/-- C56: a text is rejected exactly when it has a bad line; otherwise every option has the value of
its last assignment. Missing: a line of blanks counts as bad (`C56_fails`). -/
theorem C56_parse_partial (text : Str) :
    ((∃ l ∈ getLines text, Bad l) → Config.parseText text = .throw .illegalArgument) ∧
    ((∀ l ∈ getLines text, ¬ Bad l) → ∃ d, Config.parseText text = .ok d ∧
      ∀ sec opt v, (d.options sec).get opt = some v ↔ LastAssigned (getLines text) sec opt v) := by
  constructor
  · rintro ⟨l, hl, hb⟩
    simp [Config.parseText, parseLines_bad _ l hl hb]
  · intro h
    obtain ⟨st, h1, _, h3⟩ := parseLines_spec _ h
    exact ⟨st.2, by simp [Config.parseText, h1], h3⟩

/-- Comments and empty lines can be left out. -/
theorem C56_comments (ls ls' : List Str) (l : Str) (h : Skipped l) (st : Str × Config) :
    Config.parseLines (ls ++ l :: ls') st = Config.parseLines (ls ++ ls') st := by
  induction ls generalizing st with
  | nil => simp [Config.parseLines, (parseLine_cases l st).1 h]
  | cons x ls ih =>
    simp only [List.cons_append, Config.parseLines]
    cases Config.parseLine x st with
    | ok st' => simp [ih]
    | throw e => rfl
    | ub u => rfl

/-- C56 is false for a line of blanks: it is rejected. -/
theorem C56_fails : ¬ ∀ (a b : Str), (∃ d, Config.parseText (a ++ c!"\n" ++ b) = .ok d) →
    ∀ l : Str, (∀ c ∈ l, Space c) → '\n' ∉ l →
      ∃ d, Config.parseText (a ++ c!"\n" ++ l ++ c!"\n" ++ b) = .ok d := by
  intro h
  obtain ⟨d, hd⟩ := h c!"[x]" c!"a = 1" ⟨[(c!"x", [(c!"a", c!"1")])], by decide +kernel⟩ c!" "
    (by simp [Space]) (by decide)
  have : Config.parseText (c!"[x]" ++ c!"\n" ++ c!" " ++ c!"\n" ++ c!"a = 1") =
    .throw .illegalArgument := by decide +kernel
  rw [this] at hd
  cases hd

/-- Non-vacuity of C56: two sections, a comment and a repeated option. -/
example : Config.parseText c!"a = 0\n[x]\n# c\na = 1\nb = 2 = 3\na =4\n" =
    .ok [(c!"default", [(c!"a", c!"0")]), (c!"x", [(c!"a", c!"4"), (c!"b", c!"2 = 3")])] := by
  decide +kernel

/-! ## C57 -/

/-- C57: a file that is read successfully, a text that is not, leave the mutex free. Missing:
malformed files (`C57_fails`). -/
theorem C57_unlocked_partial (s : ConfigSt) (h : s.locked = false) (file : Option Str)
    (hok : (ConfigSt.newConfig file s).1 = .ok ()) (text : Str) :
    (ConfigSt.newConfig file s).2.locked = false ∧
      (ConfigSt.newConfigFromText text s).2.locked = false := by
  constructor
  · obtain ⟨_, s1, h1, hok⟩ := M.bind_ok_inv hok
    obtain ⟨d, s2, h2, hok⟩ := M.bind_ok_inv hok
    unfold ConfigSt.newConfig
    rw [M.bind_run_ok h1, M.bind_run_ok h2]
    rfl
  · unfold ConfigSt.newConfigFromText
    rw [M.bind_run]
    cases Config.parseText text <;> simpa [M.bind_run] using h

/-- Reading a file fails exactly like reading its text, when the mutex is free. -/
theorem C57_same_partial (s : ConfigSt) (h : s.locked = false) (text : Str) :
    (ConfigSt.newConfig (some text) s).1 = (Config.parseText text).map fun _ => () := by
  simp only [ConfigSt.newConfig, ConfigSt.lock, ConfigSt.unlock, M.bind_run, h]
  cases Config.parseText text <;> simp

/-- What a file and a text leave in the object: every option has the value of its last assignment. -/
theorem C57_data_partial (s : ConfigSt) (h : s.locked = false) (text : Str)
    (hgood : ∀ l ∈ getLines text, ¬ Bad l) (sec opt v : Str) :
    ((((ConfigSt.newConfig (some text) s).2.data.options sec).get opt = some v ↔
        LastAssigned (getLines text) sec opt v)) ∧
      (((ConfigSt.newConfigFromText text s).2.data.options sec).get opt = some v ↔
        LastAssigned (getLines text) sec opt v) := by
  obtain ⟨d, hd, hspec⟩ := (C56_parse_partial text).2 hgood
  constructor
  · simp only [ConfigSt.newConfig, ConfigSt.lock, ConfigSt.unlock, M.bind_run, h, hd, M.lift_run, M.modify_run,
      Bool.false_eq_true, if_false]
    exact hspec sec opt v
  · simp only [ConfigSt.newConfigFromText, M.bind_run, hd, M.lift_run, M.modify_run]
    exact hspec sec opt v

/-- Non-vacuity of `C57_data_partial`: a file with a repeated option. -/
example : ((ConfigSt.newConfig (some c!"[x]\na = 1\na = 2\n") ⟨false, []⟩).2.data.options c!"x").get c!"a" = some c!"2" := by
  decide +kernel

/-- C57 for `Set`: an empty key is refused and nothing changes; either way the mutex is left free. -/
theorem C57_set (s : ConfigSt) (h : s.locked = false) (key value : Str) :
    (ConfigSt.set key value s).2.locked = false ∧
      ((ConfigSt.set key value s).1 = .ok () ↔ key ≠ []) ∧
      (key = [] → ConfigSt.set key value s = (.throw .illegalArgument, s)) := by
  obtain ⟨l, d⟩ := s
  simp only at h
  subst h
  by_cases hk : key = []
  · subst hk
    simp [ConfigSt.set, ConfigSt.lock, ConfigSt.unlock, M.bind_run]
  · simp [ConfigSt.set, ConfigSt.lock, ConfigSt.unlock, M.bind_run, hk]

/-- C57 is false: after one malformed file every later file read blocks. -/
theorem C57_fails (s : ConfigSt) (h : s.locked = false) (text : Str)
    (hbad : ∃ l ∈ getLines text, Bad l) (file : Option Str) :
    (ConfigSt.newConfig (some text) s).1 = .throw .illegalArgument ∧
      (ConfigSt.newConfig file (ConfigSt.newConfig (some text) s).2).1 = .ub .relock := by
  have hp := (C56_parse_partial text).1 hbad
  refine ⟨by rw [C57_same_partial s h, hp]; rfl, ?_⟩
  have : (ConfigSt.newConfig (some text) s).2.locked = true := by
    simp [ConfigSt.newConfig, ConfigSt.lock, M.bind_run, h, hp]
  generalize (ConfigSt.newConfig (some text) s).2 = s' at this
  simp [ConfigSt.newConfig, ConfigSt.lock, M.bind_run, this]

example : ∃ l ∈ getLines c!"[r]\noops\n", Bad l := by
  refine ⟨c!"oops", by decide, ?_, ?_, by decide⟩
  · rintro (h | h | h) <;> revert h <;> decide
  · rintro ⟨s, h⟩
    unfold Header at h
    rw [show trim c!"oops" = c!"oops" by decide] at h
    simp at h

/-! ## C58 -/

/-- C58: the definitions load exactly when the four sections are there, and each main definition
then has its assertion; otherwise the missing-sections exception is thrown. Missing: a request
definition without matchers (`C58_fails`); every regex made from a token is taken to compile. -/
theorem C58_sections_partial {rx} (hrx : RxTotal rx) (d : Config)
    (hrm : Defined d c!"r" → Defined d c!"m") :
    ((∀ sec ∈ [c!"r", c!"p", c!"e", c!"m"], Defined d sec) →
      ∃ m, Model.loadFromConfig rx d [] = (.ok (), m) ∧
        ∀ sec ∈ [c!"r", c!"p", c!"e", c!"m"], ∃ b, m.find sec sec = some (newAssertion sec sec
          (Config.get (Model.sectionName sec ++ c!"::" ++ sec) d) b)) ∧
    ((∃ sec ∈ [c!"r", c!"p", c!"e", c!"m"], ¬ Defined d sec) →
      (Model.loadFromConfig rx d []).1 = .throw .missingSections) := by
  have h0 : Ready [] := fun a ha => by cases ha
  obtain ⟨m1, r1, s1⟩ := loadSection_step hrx d (sec := c!"m") (.inl rfl) h0 (by intro h; cases h)
  obtain ⟨m2, r2, s2⟩ := loadSection_step hrx d (sec := c!"r") (.inr (.inl rfl)) s1.ready (by
    intro _ h
    obtain ⟨b, hb⟩ := s1.found (hrm h) (by intro h; cases h)
    rw [hb]; rfl)
  obtain ⟨m3, r3, s3⟩ := loadSection_step hrx d (sec := c!"p") (.inr (.inr (.inl rfl))) s2.ready
    (by intro h; cases h)
  obtain ⟨m4, r4, s4⟩ := loadSection_step hrx d (sec := c!"g") (.inr (.inr (.inr (.inl rfl)))) s3.ready
    (by intro h; cases h)
  obtain ⟨m5, r5, s5⟩ := loadSection_step hrx d (sec := c!"e") (.inr (.inr (.inr (.inr rfl)))) s4.ready
    (by intro h; cases h)
  have hload : Model.loadSections rx d [c!"m", c!"r", c!"p", c!"g", c!"e"] [] = (.ok (), m5) := by
    simp only [Model.loadSections, M.bind_run, r1, r2, r3, r4, r5, M.pure_run]
  have hm : m5.has c!"m" = true ↔ Defined d c!"m" := by
    rw [(s5.other _ (by decide)).2, (s4.other _ (by decide)).2, (s3.other _ (by decide)).2,
      (s2.other _ (by decide)).2, s1.has]
    simp [UMap.has]
  have hr : m5.has c!"r" = true ↔ Defined d c!"r" := by
    rw [(s5.other _ (by decide)).2, (s4.other _ (by decide)).2, (s3.other _ (by decide)).2,
      s2.has, (s1.other _ (by decide)).2]
    simp [UMap.has]
  have hp : m5.has c!"p" = true ↔ Defined d c!"p" := by
    rw [(s5.other _ (by decide)).2, (s4.other _ (by decide)).2, s3.has,
      (s2.other _ (by decide)).2, (s1.other _ (by decide)).2]
    simp [UMap.has]
  have he : m5.has c!"e" = true ↔ Defined d c!"e" := by
    rw [s5.has, (s4.other _ (by decide)).2, (s3.other _ (by decide)).2,
      (s2.other _ (by decide)).2, (s1.other _ (by decide)).2]
    simp [UMap.has]
  have hrun : Model.loadFromConfig rx d [] =
      if [c!"r", c!"p", c!"e", c!"m"].all m5.hasSection then (.ok (), m5)
      else (.throw .missingSections, m5) := by
    simp only [Model.loadFromConfig, M.bind_run, hload]
    simp only [M.get_run]
    split <;> simp
  constructor
  · intro h
    refine ⟨m5, ?_, ?_⟩
    · rw [hrun, if_pos]
      simp [Model.hasSection, hr.mpr (h _ (by simp)), hp.mpr (h _ (by simp)),
        he.mpr (h _ (by simp)), hm.mpr (h _ (by simp))]
    · intro sec hsec
      have hd := h sec hsec
      simp only [List.mem_cons, List.not_mem_nil, or_false] at hsec
      rcases hsec with rfl | rfl | rfl | rfl
      · rw [(s5.other _ (by decide)).1, (s4.other _ (by decide)).1, (s3.other _ (by decide)).1]
        exact s2.found hd (by intro h; cases h)
      · rw [(s5.other _ (by decide)).1, (s4.other _ (by decide)).1]
        refine s3.found hd (fun _ => ⟨?_, ?_⟩)
        · rw [(s2.other _ (by decide)).2, s1.has]; exact .inr (h _ (by simp))
        · rw [s2.has]; exact .inr (h _ (by simp))
      · exact s5.found hd (by intro h; cases h)
      · rw [(s5.other _ (by decide)).1, (s4.other _ (by decide)).1, (s3.other _ (by decide)).1,
          (s2.other _ (by decide)).1]
        exact s1.found hd (by intro h; cases h)
  · rintro ⟨sec, hsec, hd⟩
    rw [hrun, if_neg]
    intro hall
    have := List.all_eq_true.mp hall sec hsec
    simp only [List.mem_cons, List.not_mem_nil, or_false] at hsec
    unfold Model.hasSection at this
    rcases hsec with rfl | rfl | rfl | rfl
    · exact hd (hr.mp this)
    · exact hd (hp.mp this)
    · exact hd (he.mp this)
    · exact hd (hm.mp this)

/-- C58: whatever the regex library does, definitions that load have the four sections. -/
theorem C58_required (rx) (d : Config) (h : (Model.loadFromConfig rx d []).1 = .ok ()) :
    ∀ sec ∈ [c!"r", c!"p", c!"e", c!"m"], Defined d sec := by
  intro sec hsec
  apply Classical.byContradiction
  intro hd
  obtain ⟨_, m1, h1, h⟩ := M.bind_ok_inv h
  have hhas := loadSections_has rx d hd [c!"m", c!"r", c!"p", c!"g", c!"e"] []
  rw [h1] at hhas
  obtain ⟨m, m2, h2, h⟩ := M.bind_ok_inv h
  cases h2
  split at h
  · rename_i hall
    have := List.all_eq_true.mp hall sec hsec
    unfold Model.hasSection at this
    rw [this] at hhas
    cases hhas
  · cases h

/-- C58 is false: when there are no matchers but a request and an effect definition,
`std::out_of_range` is thrown in place of the missing-sections exception. -/
theorem C58_fails (rx) (d : Config) (hm : ¬ Defined d c!"m") (hr : Defined d c!"r")
    (he : Defined d c!"e") : (Model.loadFromConfig rx d []).1 = .throw .outOfRange := by
  have key : (Model.loadSections rx d [c!"m", c!"r", c!"p", c!"g", c!"e"] []).1 =
      .throw .outOfRange := by
    rw [Model.loadSections, M.bind_run, loadSection_undefined rx d hm]
    simp only
    rw [Model.loadSections, M.bind_run]
    rcases loadSection_r_noMatcher rx d hr with h | ⟨m, a, h1, h2, h3, h4⟩
    · generalize Model.loadSection rx d c!"r" [] = q at h ⊢
      obtain ⟨q, m1⟩ := q
      simp only at h
      subst h
      rfl
    · rw [h1]
      simp only
      obtain ⟨m', p1, p2, p3⟩ : ∃ m', Model.loadSection rx d c!"p" m = (.ok (), m') ∧
          m'.find c!"r" c!"r" = some a ∧ m'.find c!"m" c!"m" = none := by
        by_cases hp : Defined d c!"p"
        · refine ⟨_, loadSection_blocked rx d hp (by rw [h4]; simp), ?_, ?_⟩
          · rw [Model.find_ensureSec, h2]
          · rw [Model.find_ensureSec, h3]
        · exact ⟨m, loadSection_undefined rx d hp m, h2, h3⟩
      rw [Model.loadSections, M.bind_run, p1]
      simp only
      rw [Model.loadSections, M.bind_run]
      by_cases hg : Defined d c!"g"
      · have h := loadSection_noMatcher rx d p2 p3 hg (by decide)
        generalize Model.loadSection rx d c!"g" m' = q at h ⊢
        obtain ⟨q, m1⟩ := q
        simp only at h
        subst h
        rfl
      · rw [loadSection_undefined rx d hg]
        simp only
        rw [Model.loadSections, M.bind_run]
        have h := loadSection_noMatcher rx d p2 p3 he (by decide)
        generalize Model.loadSection rx d c!"e" m' = q at h ⊢
        obtain ⟨q, m1⟩ := q
        simp only at h
        subst h
        rfl
  unfold Model.loadFromConfig
  rw [M.bind_run]
  generalize Model.loadSections rx d [c!"m", c!"r", c!"p", c!"g", c!"e"] [] = q at key ⊢
  obtain ⟨q, m1⟩ := q
  simp only at key
  subst key
  rfl

/-- Non-vacuity of C58: examples/rbac_model.conf gives the model the other files use, and the two
exceptions. -/
example : Model.ofText (fun _ s => .ok s) (c!"[request_definition]\nr = sub, obj, act\n\n" ++
      c!"[policy_definition]\np = sub, obj, act\n\n[role_definition]\ng = _, _\n\n" ++
      c!"[policy_effect]\ne = some(where (p.eft == allow))\n\n" ++
      c!"[matchers]\nm = g(r.sub, p.sub) && r.obj == p.obj && r.act == p.act") =
      .ok (Fixtures.rbacModel [] []) ∧
    Model.ofText (fun _ s => .ok s) c!"[matchers]\nm = true\n" = .throw .missingSections ∧
    Model.ofText (fun _ s => .ok s)
      c!"[request_definition]\nr = sub\n[policy_effect]\ne = some(where (p.eft == allow))\n" =
      .throw .outOfRange := by
  decide +kernel

/-- examples/basic_model.conf gets hash storage. -/
example : Model.ofText (fun _ s => .ok s) (c!"[request_definition]\nr = sub, obj, act\n\n" ++
      c!"[policy_definition]\np = sub, obj, act\n\n" ++
      c!"[policy_effect]\ne = some(where (p.eft == allow))\n\n" ++
      c!"[matchers]\nm = r.sub == p.sub && r.obj == p.obj && r.act == p.act") =
    .ok ((Fixtures.aclModel .hashset).put c!"e" c!"e"
      (newAssertion c!"e" c!"e" c!"some(where (p.eft == allow))" true)) := by
  decide +kernel

/-! ## C59 -/

/-- C59: once the matcher, the request definition and, if there are any, a role definition are in,
the other definitions can be added in any order. Missing: the definitions the storage choice looks
at (`C59_fails`). -/
theorem C59_order_partial {rx} (hrx : RxTotal rx) {m : Model} (hr : (m.find c!"r" c!"r").isSome)
    (hm : (m.find c!"m" c!"m").isSome) (hready : Ready m) {ds ds' : List (Str × Str × Str)}
    (hperm : ds.Perm ds') (hnd : (ds.map fun x => (x.1, x.2.1)).Nodup) (hfree : ∀ x ∈ ds, Free m x) :
    (addDefs rx ds m).1 = .ok () ∧ (addDefs rx ds' m).1 = .ok () ∧
      SameModel (addDefs rx ds m).2 (addDefs rx ds' m).2 := by
  obtain ⟨b, hb⟩ := hashPossible_ok hrx hready
  obtain ⟨m1, h1, h2, h3⟩ := addDefs_run hrx ds m hr hm hready hb hnd hfree
  obtain ⟨m2, i1, i2, i3⟩ := addDefs_run hrx ds' m hr hm hready hb ((hperm.map _).nodup_iff.mp hnd)
    fun x hx => hfree x (hperm.mem_iff.mpr hx)
  rw [h1, i1]
  refine ⟨rfl, rfl, fun s => ⟨?_, fun t => ?_⟩⟩
  · rw [Bool.eq_iff_iff, h2, i2]
    simp only [hperm.mem_iff]
  · apply Option.ext
    intro a
    rw [h3, i3]
    simp only [hperm.mem_iff]

/-- A model fresh from `AddDef` of a matcher and of a request definition meets the hypotheses. -/
theorem C59_start_partial (rx) {vm vr : Str} (hvm : vm ≠ []) (hvr : vr ≠ []) :
    (addDefs rx [(c!"m", c!"m", vm), (c!"r", c!"r", vr)] []).1 = .ok () ∧
    ∀ m, m = (addDefs rx [(c!"m", c!"m", vm), (c!"r", c!"r", vr)] []).2 →
      (m.find c!"r" c!"r").isSome ∧ (m.find c!"m" c!"m").isSome ∧ Ready m ∧ m.has c!"g" = false := by
  have e1 : Model.addDef rx c!"m" c!"m" vm [] =
      (.ok true, [(c!"m", [(c!"m", newAssertion c!"m" c!"m" vm false)])]) := by
    have : hashPossible rx (Model.ensureSec [] c!"m") = .ok false := rfl
    simp [Model.addDef, M.bind_run, hvm, this]
    rfl
  have e2 : Model.addDef rx c!"r" c!"r" vr [(c!"m", [(c!"m", newAssertion c!"m" c!"m" vm false)])] =
      (.ok true, [(c!"m", [(c!"m", newAssertion c!"m" c!"m" vm false)]),
        (c!"r", [(c!"r", newAssertion c!"r" c!"r" vr false)])]) := by
    have : hashPossible rx (Model.ensureSec [(c!"m", [(c!"m", newAssertion c!"m" c!"m" vm false)])] c!"r") =
      .ok false := rfl
    simp [Model.addDef, M.bind_run, hvr, this]
    rfl
  have e : addDefs rx [(c!"m", c!"m", vm), (c!"r", c!"r", vr)] [] =
      (.ok (), [(c!"m", [(c!"m", newAssertion c!"m" c!"m" vm false)]),
        (c!"r", [(c!"r", newAssertion c!"r" c!"r" vr false)])]) := by
    simp only [addDefs, M.bind_run, e1, e2, M.pure_run]
  rw [e]
  refine ⟨rfl, ?_⟩
  rintro m rfl
  refine ⟨rfl, rfl, ?_, rfl⟩
  intro a ha
  cases ha
  exact ⟨(newAssertion_tokens _ _ _).1, (newAssertion_tokens c!"r" vr false).2, rfl⟩

/-- C59 is false: a policy definition added before the matcher or the request definition is lost. -/
theorem C59_fails : ¬ ∀ (rx) (ds ds' : List (Str × Str × Str)), RxTotal rx → ds.Perm ds' →
    (ds.map fun x => (x.1, x.2.1)).Nodup → SameModel (addDefs rx ds []).2 (addDefs rx ds' []).2 := by
  intro h
  have := (h (fun _ s => .ok s) [(c!"m", c!"m", c!"r.a == p.a"), (c!"r", c!"r", c!"a"), (c!"p", c!"p", c!"a")]
    [(c!"p", c!"p", c!"a"), (c!"m", c!"m", c!"r.a == p.a"), (c!"r", c!"r", c!"a")]
    (fun _ s => ⟨s, rfl⟩) (by decide) (by decide) c!"p").2 c!"p"
  revert this
  decide +kernel

/-- C59 is false also when `p` comes after `m` and `r`: whether the rules of `p` are kept in a hash
set depends on whether `g` was added before. -/
theorem C59_storage_fails : ¬ ∀ (rx) (ds ds' : List (Str × Str × Str)), RxTotal rx → ds.Perm ds' →
    (ds.map fun x => (x.1, x.2.1)).Nodup → ∀ m : Model, (m.find c!"r" c!"r").isSome →
    (m.find c!"m" c!"m").isSome → Ready m → SameModel (addDefs rx ds m).2 (addDefs rx ds' m).2 := by
  intro h
  have := (h (fun _ s => .ok s) [(c!"p", c!"p", c!"a"), (c!"g", c!"g", c!"_, _")]
    [(c!"g", c!"g", c!"_, _"), (c!"p", c!"p", c!"a")]
    (fun _ s => ⟨s, rfl⟩) (by decide) (by decide)
    [(c!"m", [(c!"m", newAssertion c!"m" c!"m" c!"r.a == p.a" false)]),
     (c!"r", [(c!"r", newAssertion c!"r" c!"r" c!"a" false)])] rfl rfl
    (by
      intro a ha
      cases ha
      exact ⟨(newAssertion_tokens _ _ _).1, (newAssertion_tokens c!"r" c!"a" false).2, rfl⟩)
    c!"p").2 c!"p"
  revert this
  decide +kernel

/-- Non-vacuity of C59: `p`, `p2` and `e` in two orders. -/
example : let m : Model := [(c!"m", [(c!"m", newAssertion c!"m" c!"m" c!"r.a == p.a" false)]),
      (c!"r", [(c!"r", newAssertion c!"r" c!"r" c!"a" false)])]
    let ds := [(c!"p", c!"p", c!"a"), (c!"e", c!"e", c!"x"), (c!"p", c!"p2", c!"a, b")]
    (∀ x ∈ ds, Free m x) ∧ (ds.map fun x => (x.1, x.2.1)).Nodup ∧ ds.Perm ds.reverse := by
  refine ⟨?_, by decide, by decide⟩
  intro x hx
  simp only [List.mem_cons, List.not_mem_nil, or_false] at hx
  rcases hx with rfl | rfl | rfl <;> refine ⟨by decide, by decide, by decide⟩

end ConfigProps
end Casbin
