import Verif.KeyPatternLemmas

/-!
# Properties of the matching functions with path templates

C64 (`KeyMatch2`), C76 (`KeyMatch3`), C77 (`KeyGet2`), C78 (`KeyGet3`), C79 (`KeyMatch4`) and C80
(literal characters). A template is a list of segments, each a literal text or a parameter with
literal text around it, joined by slashes, with or without `/*` at the end. All the results are for
any behaviour of the regular expression library on expressions that are not modelled.
-/

namespace Casbin.KeyPatternProps

/-- **C64** (part). For templates with parameters `:name` whose literal characters have no meaning
in regular expressions, `KeyMatch2` answers whether the path is an instance of the template. What
is missing is the other characters, such as the dot, see `C64_fails`. -/
theorem C64_keyMatch2_partial {segs : List Seg} (hne : segs ≠ []) (h : ∀ s ∈ segs, s.Colon) (tail : Bool)
    (rx : RxLib) (path : Str) :
    ∃ b, keyMatch2 rx path (template Seg.colonText segs tail) = .ok b ∧
      (b = true ↔ ∃ bs, Instance segs tail path bs) :=
  keyMatch2_template hne h tail rx path

/-- A template for the examples: `/alice/:id/x`. -/
def exSegs : List Seg := [.lit c!"", .lit c!"alice", .par c!"" c!"id" c!"", .lit c!"x"]

theorem ordinary_lit {t : Str} (h : t.all fun c => decide (c ∉ c!"/^$\\.*+?()[]{}|:")) :
    ∀ c ∈ t, Ordinary c ∧ c ≠ ':' := by
  intro c hc
  have := List.all_eq_true.mp h c hc
  simp only [decide_eq_true_eq, List.mem_cons, not_or] at this
  refine ⟨?_, by tauto⟩
  simp only [Ordinary, List.mem_cons, not_or]
  tauto

theorem exSegs_colon : ∀ s ∈ exSegs, s.Colon := by
  simp only [exSegs, List.mem_cons, List.not_mem_nil, or_false, forall_eq_or_imp, forall_eq]
  refine ⟨?_, ?_, ⟨?_, by decide, by decide, rfl⟩, ?_⟩ <;> exact ordinary_lit (by decide)

theorem exSegs_instance : Instance exSegs false c!"/alice/7/x" [(c!"id", c!"7")] := by
  refine ⟨[c!"", c!"alice", c!"7", c!"x"], .lit (.lit ?_), rfl⟩
  exact Binds.par (pre := []) (post := []) (v := c!"7") (by decide) (by decide) (.lit .nil)

example (rx : RxLib) : (∀ s ∈ exSegs, s.Colon) ∧ template Seg.colonText exSegs false = c!"/alice/:id/x" ∧
    Instance exSegs false c!"/alice/7/x" [(c!"id", c!"7")] ∧
    keyMatch2 rx c!"/alice/7/x" c!"/alice/:id/x" = .ok true ∧
    keyMatch2 rx c!"/alice//x" c!"/alice/:id/x" = .ok false ∧
    keyMatch2 rx c!"/alice/7/8/x" c!"/alice/:id/x" = .ok false ∧
    keyMatch2 rx c!"/alice/7/8/x" c!"/alice/:id/*" = .ok true :=
  ⟨exSegs_colon, by decide, exSegs_instance, by rfl, by rfl, by rfl, by rfl⟩

/-- **C64** fails for literal segments with a dot: `/a.b` is matched by `/aXb`. -/
theorem C64_fails :
    ¬ ∀ (rx : RxLib) (t path : Str), (∀ c ∈ t, c ≠ ':' ∧ c ≠ '/' ∧ c ≠ '*') →
      (keyMatch2 rx path ('/' :: t) = .ok true ↔ path = '/' :: t) := by
  intro h
  have h1 := (h (fun _ _ => .ok none) c!"a.b" c!"/aXb" (by decide)).mp (by decide +kernel)
  exact absurd h1 (by decide)

/-- **C76.** For templates with parameters `{name}`, `KeyMatch3` answers whether the path is an
instance of the template. -/
theorem C76_keyMatch3 {segs : List Seg} (hne : segs ≠ []) (h : ∀ s ∈ segs, s.Braces) (tail : Bool)
    (rx : RxLib) (path : Str) :
    ∃ b, keyMatch3 rx path (template Seg.braceText segs tail) = .ok b ∧
      (b = true ↔ ∃ bs, Instance segs tail path bs) :=
  keyMatch3_template hne h tail rx path

/-- A template for the examples: `/proj_{p}_admin/{q}`. -/
def exSegs' (q : Str) : List Seg := [.lit c!"", .par c!"proj_" c!"p" c!"_admin", .par c!"" q c!""]

theorem exSegs_braces (q : Str) (h0 : q ≠ []) (h1 : '/' ∉ q) (h2 : '}' ∉ q) :
    ∀ s ∈ exSegs' q, s.Braces := by
  simp only [exSegs', List.mem_cons, List.not_mem_nil, or_false, forall_eq_or_imp, forall_eq]
  refine ⟨?_, ⟨?_, by decide, by decide, by decide, ?_⟩, ⟨?_, h0, h1, h2, ?_⟩⟩ <;>
    exact fun c hc => (ordinary_lit (by decide) c hc).1

theorem exSegs_instance' (q : Str) :
    Instance (exSegs' q) true c!"/proj_x_y_admin/z/1/2" [(c!"p", c!"x_y"), (q, c!"z")] := by
  refine ⟨[c!"", c!"proj_x_y_admin", c!"z"], .lit ?_, ⟨c!"1/2", by decide, by decide, by decide⟩⟩
  exact Binds.par (pre := c!"proj_") (post := c!"_admin") (v := c!"x_y") (by decide) (by decide)
    (Binds.par (pre := []) (post := []) (v := c!"z") (by decide) (by decide) .nil)

example (rx : RxLib) : (∀ s ∈ exSegs' c!"q", s.Braces) ∧
    template Seg.braceText (exSegs' c!"q") true = c!"/proj_{p}_admin/{q}/*" ∧
    Instance (exSegs' c!"q") true c!"/proj_x_y_admin/z/1/2" [(c!"p", c!"x_y"), (c!"q", c!"z")] ∧
    keyMatch3 rx c!"/proj_x_y_admin/z/1/2" c!"/proj_{p}_admin/{q}/*" = .ok true ∧
    keyMatch3 rx c!"/proj__admin/z/1/2" c!"/proj_{p}_admin/{q}/*" = .ok false :=
  ⟨exSegs_braces _ (by decide) (by decide) (by decide), by decide, exSegs_instance' _, by rfl, by rfl⟩

/-- **C77.** For templates with parameters `:name`, `KeyGet2` returns the value the path gives to
the first parameter with the name, and the empty text if there is no such parameter or the path is
no instance of the template. -/
theorem C77_keyGet2 {segs : List Seg} (hne : segs ≠ []) (h : ∀ s ∈ segs, s.Colon) (tail : Bool)
    (rx : RxLib) (path v : Str) :
    (∀ bs, Instance segs tail path bs →
      keyGet2 rx path (template Seg.colonText segs tail) v =
        .ok (match bs.find? fun b => b.1 = v with | some b => b.2 | none => [])) ∧
    ((¬ ∃ bs, Instance segs tail path bs) →
      keyGet2 rx path (template Seg.colonText segs tail) v = .ok []) :=
  keyGet2_template hne h tail rx path v

example (rx : RxLib) : Instance exSegs false c!"/alice/7/x" [(c!"id", c!"7")] ∧
    keyGet2 rx c!"/alice/7/x" c!"/alice/:id/x" c!"id" = .ok c!"7" ∧
    keyGet2 rx c!"/alice/7/x" c!"/alice/:id/x" c!"no" = .ok [] ∧
    keyGet2 rx c!"/bob/7/x" c!"/alice/:id/x" c!"id" = .ok [] :=
  ⟨exSegs_instance, by rfl, by rfl, by rfl⟩

/-- **C78.** For templates with parameters `{name}`, `KeyGet3` returns the value the path gives to
the first parameter with the name, and the empty text if there is no such parameter or the path is
no instance of the template. -/
theorem C78_keyGet3 {segs : List Seg} (hne : segs ≠ []) (h : ∀ s ∈ segs, s.Braces) (tail : Bool)
    (rx : RxLib) (path v : Str) :
    (∀ bs, Instance segs tail path bs →
      keyGet3 rx path (template Seg.braceText segs tail) v =
        .ok (match bs.find? fun b => b.1 = v with | some b => b.2 | none => [])) ∧
    ((¬ ∃ bs, Instance segs tail path bs) →
      keyGet3 rx path (template Seg.braceText segs tail) v = .ok []) :=
  keyGet3_template hne h tail rx path v

example (rx : RxLib) :
    keyGet3 rx c!"/proj_x_y_admin/z/1/2" c!"/proj_{p}_admin/{q}/*" c!"p" = .ok c!"x_y" ∧
    keyGet3 rx c!"/proj_x_y_admin/z/1/2" c!"/proj_{p}_admin/{q}/*" c!"q" = .ok c!"z" ∧
    keyGet3 rx c!"/proj__admin/z/1/2" c!"/proj_{p}_admin/{q}/*" c!"q" = .ok [] :=
  ⟨by rfl, by rfl, by rfl⟩

/-- **C79** (part). For templates with parameters `{name}`, at most one in a segment, `KeyMatch4`
answers whether the path is an instance of the template that gives parameters of the same name the
same value. What is missing is more than one parameter in a segment, see `C79_fails`. -/
theorem C79_keyMatch4_partial {segs : List Seg} (hne : segs ≠ []) (h : ∀ s ∈ segs, s.Braces) (tail : Bool)
    (rx : RxLib) (path : Str) :
    ∃ b, keyMatch4 rx path (template Seg.braceText segs tail) = .ok b ∧
      (b = true ↔ ∃ bs, Instance segs tail path bs ∧
        ∀ n v w, (n, v) ∈ bs → (n, w) ∈ bs → v = w) :=
  keyMatch4_template hne h tail rx path

example (rx : RxLib) : (∀ s ∈ exSegs' c!"p", s.Braces) ∧
    Instance (exSegs' c!"p") true c!"/proj_x_y_admin/z/1/2" [(c!"p", c!"x_y"), (c!"p", c!"z")] ∧
    keyMatch4 rx c!"/proj_z_admin/z/1/2" c!"/proj_{p}_admin/{p}/*" = .ok true ∧
    keyMatch4 rx c!"/proj_x_y_admin/z/1/2" c!"/proj_{p}_admin/{p}/*" = .ok false ∧
    keyMatch4 rx c!"/proj_x_y_admin/z/1/2" c!"/proj_{p}_admin/{q}/*" = .ok true :=
  ⟨exSegs_braces _ (by decide) (by decide) (by decide), exSegs_instance' _, by rfl, by rfl, by rfl⟩

/-- **C79** fails with two parameters in a segment: `KeyMatch4("/a-b", "/{p}-{q}")` throws, as the
search for the tokens takes `{p}-{q}` for one parameter. `KeyMatch3` accepts the same path. -/
theorem C79_fails (rx : RxLib) :
    keyMatch4 rx c!"/a-b" c!"/{p}-{q}" = .throw .text ∧ keyMatch3 rx c!"/a-b" c!"/{p}-{q}" = .ok true :=
  ⟨by rfl, by rfl⟩

/-- **C80** (part). A template without parameters and wildcards whose characters have no meaning in
regular expressions is matched by itself only, by each of the three functions. -/
theorem C80_literal_partial {ts : List Str} (hne : ts ≠ []) (h : ∀ t ∈ ts, ∀ c ∈ t, Ordinary c ∧ c ≠ ':')
    (rx : RxLib) (path : Str) :
    keyMatch2 rx path (slashJoin ts) = .ok (decide (path = slashJoin ts)) ∧
    keyMatch3 rx path (slashJoin ts) = .ok (decide (path = slashJoin ts)) ∧
    keyMatch4 rx path (slashJoin ts) = .ok (decide (path = slashJoin ts)) := by
  have hb : ∀ (ts : List Str) qs bs, Binds (ts.map Seg.lit) qs bs ↔ qs = ts ∧ bs = [] := by
    intro ts
    induction ts with
    | nil =>
      intro qs bs
      constructor
      · intro h; cases h; simp
      · rintro ⟨rfl, rfl⟩; exact .nil
    | cons t ts ih =>
      intro qs bs
      constructor
      · intro h
        cases h with
        | lit h => obtain ⟨rfl, rfl⟩ := (ih _ _).mp h; simp
      · rintro ⟨rfl, rfl⟩; exact .lit ((ih _ _).mpr ⟨rfl, rfl⟩)
  have hi : ∀ bs, Instance (ts.map Seg.lit) false path bs ↔ path = slashJoin ts ∧ bs = [] := by
    intro bs
    constructor
    · rintro ⟨qs, h, hp⟩
      obtain ⟨rfl, rfl⟩ := (hb _ _ _).mp h
      exact ⟨by simpa using hp, rfl⟩
    · rintro ⟨hp, rfl⟩
      exact ⟨ts, (hb _ _ _).mpr ⟨rfl, rfl⟩, by simpa using hp⟩
  have t1 : template Seg.colonText (ts.map Seg.lit) false = slashJoin ts := by
    simp [template, List.map_map, Function.comp_def, Seg.colonText]
  have t2 : template Seg.braceText (ts.map Seg.lit) false = slashJoin ts := by
    simp [template, List.map_map, Function.comp_def, Seg.braceText]
  have hne' : ts.map Seg.lit ≠ [] := by simpa using hne
  have hc : ∀ s ∈ ts.map Seg.lit, s.Colon := by simpa [Seg.Colon] using h
  have hbr : ∀ s ∈ ts.map Seg.lit, s.Braces := by
    simp only [List.mem_map, forall_exists_index, and_imp, forall_apply_eq_imp_iff₂, Seg.Braces]
    exact fun t ht c hc => (h t ht c hc).1
  obtain ⟨b2, e2, h2⟩ := keyMatch2_template hne' hc false rx path
  obtain ⟨b3, e3, h3⟩ := keyMatch3_template hne' hbr false rx path
  obtain ⟨b4, e4, h4⟩ := keyMatch4_template hne' hbr false rx path
  rw [t1] at e2
  rw [t2] at e3 e4
  refine ⟨?_, ?_, ?_⟩
  · rw [e2, Outcome.ok.injEq, eq_comm, Bool.eq_iff_iff, decide_eq_true_iff, h2]
    simp [hi]
  · rw [e3, Outcome.ok.injEq, eq_comm, Bool.eq_iff_iff, decide_eq_true_iff, h3]
    simp [hi]
  · rw [e4, Outcome.ok.injEq, eq_comm, Bool.eq_iff_iff, decide_eq_true_iff, h4]
    simp only [hi]
    constructor
    · exact fun h => ⟨[], ⟨h, rfl⟩, fun _ _ _ h => absurd h (by simp)⟩
    · rintro ⟨_, ⟨h, _⟩, _⟩; exact h

example : (∀ t ∈ [c!"", c!"foo", c!"bar-1"], ∀ c ∈ t, Ordinary c ∧ c ≠ ':') ∧
    slashJoin [c!"", c!"foo", c!"bar-1"] = c!"/foo/bar-1" := by
  refine ⟨fun t ht => ordinary_lit ?_, by decide⟩
  revert t
  decide

/-- **C80** fails for other characters: a template with a dot is matched by other paths, and one
with a plus sign is not matched by itself. -/
theorem C80_fails (rx : RxLib) :
    (keyMatch2 rx c!"/indexXhtml" c!"/index.html" = .ok true ∧
      keyMatch3 rx c!"/indexXhtml" c!"/index.html" = .ok true ∧
      keyMatch4 rx c!"/indexXhtml" c!"/index.html" = .ok true) ∧
    (keyMatch2 rx c!"/c+" c!"/c+" = .ok false ∧ keyMatch3 rx c!"/c+" c!"/c+" = .ok false ∧
      keyMatch4 rx c!"/c+" c!"/c+" = .ok false) :=
  ⟨⟨by rfl, by rfl, by rfl⟩, by rfl, by rfl, by rfl⟩

end Casbin.KeyPatternProps
