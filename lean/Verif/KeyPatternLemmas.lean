import Verif.KeyPatterns
import Mathlib.Data.List.Infix

/-!
# Path templates, and the lemmas behind `Verif.Props.KeyPatterns`
-/

namespace Casbin

/-! ## Specification -/

/-- A segment of a path template: a literal text, or a parameter between two literal texts. -/
inductive Seg
  | lit (t : Str)
  | par (pre name post : Str)

/-- The texts, separated by slashes. -/
def slashJoin : List Str → Str
  | [] => []
  | [t] => t
  | t :: t' :: ts => t ++ '/' :: slashJoin (t' :: ts)

/-- The texts `qs` are what the segments stand for, with these values of the parameters. A value is
not empty and has no slash. -/
inductive Binds : List Seg → List Str → List (Str × Str) → Prop
  | nil : Binds [] [] []
  | lit {t : Str} {ss : List Seg} {qs : List Str} {bs : List (Str × Str)} :
      Binds ss qs bs → Binds (.lit t :: ss) (t :: qs) bs
  | par {pre name post v : Str} {ss : List Seg} {qs : List Str} {bs : List (Str × Str)} :
      v ≠ [] → '/' ∉ v → Binds ss qs bs →
      Binds (.par pre name post :: ss) ((pre ++ v ++ post) :: qs) ((name, v) :: bs)

/-- The path is an instance of the template, with these values. With a tail (`/*` after the last
segment) the path goes on after a slash, with anything but line ends. -/
def Instance (segs : List Seg) (tail : Bool) (path : Str) (bs : List (Str × Str)) : Prop :=
  ∃ qs, Binds segs qs bs ∧
    if tail then ∃ r, path = slashJoin qs ++ '/' :: r ∧ '\n' ∉ r ∧ '\r' ∉ r
    else path = slashJoin qs

/-- A character of a literal text: no slash, and none with a meaning in regular expressions. -/
def Ordinary (c : Char) : Prop := c ∉ c!"/^$\\.*+?()[]{}|"

/-- A segment of a template with parameters `:name`. -/
def Seg.Colon : Seg → Prop
  | .lit t => ∀ c ∈ t, Ordinary c ∧ c ≠ ':'
  | .par pre name post => (∀ c ∈ pre, Ordinary c ∧ c ≠ ':') ∧ name ≠ [] ∧ '/' ∉ name ∧ post = []

/-- A segment of a template with parameters `{name}`. -/
def Seg.Braces : Seg → Prop
  | .lit t => ∀ c ∈ t, Ordinary c
  | .par pre name post =>
    (∀ c ∈ pre, Ordinary c) ∧ name ≠ [] ∧ '/' ∉ name ∧ '}' ∉ name ∧ ∀ c ∈ post, Ordinary c

/-- The text of a segment with parameters `:name`. -/
def Seg.colonText : Seg → Str
  | .lit t => t
  | .par pre name post => pre ++ ':' :: name ++ post

/-- The text of a segment with parameters `{name}`. -/
def Seg.braceText : Seg → Str
  | .lit t => t
  | .par pre name post => pre ++ '{' :: name ++ '}' :: post

/-- The text of a template. -/
def template (text : Seg → Str) (segs : List Seg) (tail : Bool) : Str :=
  slashJoin (segs.map text) ++ if tail then c!"/*" else []

/-! ## Matching -/

def lits (t : Str) : List RxItem := t.map fun c => { cls := .char c }

def slashItem : RxItem := { cls := .char '/' }

theorem rxRun_char (c : Char) (its : List RxItem) (p : Str) (gs : List Str) :
    rxRun ({ cls := .char c } :: its) p = some gs ↔ ∃ q, p = c :: q ∧ rxRun its q = some gs := by
  cases p with
  | nil => simp [rxRun, RxItem.choices]
  | cons d q =>
    by_cases h : d = c
    · subst h
      simp [rxRun, RxItem.choices, CharClass.has]
    · simp [rxRun, RxItem.choices, CharClass.has, h]

theorem rxRun_lits (t : Str) (its : List RxItem) (p : Str) (gs : List Str) :
    rxRun (lits t ++ its) p = some gs ↔ ∃ q, p = t ++ q ∧ rxRun its q = some gs := by
  induction t generalizing p with
  | nil => simp [lits]
  | cons c t ih =>
    rw [lits, List.map_cons, List.cons_append, rxRun_char]
    constructor
    · rintro ⟨q, rfl, h⟩
      obtain ⟨q', rfl, h'⟩ := (ih q).mp h
      exact ⟨q', rfl, h'⟩
    · rintro ⟨q, rfl, h⟩
      exact ⟨t ++ q, rfl, (ih _).mpr ⟨q, rfl, h⟩⟩

/-- The text up to the first slash, from a decomposition. -/
theorem takeWhile_slash {a q : Str} (ha : '/' ∉ a) (hq : ∀ c ∈ q.head?, c = '/') :
    (a ++ q).takeWhile CharClass.notSlash.has = a := by
  induction a with
  | nil =>
    cases q with
    | nil => rfl
    | cons c q =>
      have := hq c (by simp)
      simp [CharClass.has, this]
  | cons c a ih =>
    simp only [List.mem_cons, not_or] at ha
    have : c ≠ '/' := fun h => ha.1 h.symm
    simp [CharClass.has, this, ih ha.2]

theorem take_notSlash {p : Str} {n : Nat} (h : n ≤ (p.takeWhile CharClass.notSlash.has).length) :
    '/' ∉ p.take n := by
  intro hm
  have : p.take n <+: p.takeWhile CharClass.notSlash.has := by
    apply List.prefix_of_prefix_length_le (List.take_prefix _ _) (List.takeWhile_prefix _)
    simp; omega
  have := List.all_eq_true.mp (List.all_takeWhile (p := CharClass.notSlash.has) (l := p)) _ (this.subset hm)
  simp [CharClass.has] at this

/-- `[^/]+` before something that fixes where it ends. -/
theorem rxRun_plus {lz grp : Bool} {post : Str} {its : List RxItem} (hpost : '/' ∉ post)
    (H : ∀ q gs, rxRun its q = some gs → ∃ q', q = post ++ q' ∧ ∀ c ∈ q'.head?, c = '/')
    (p : Str) (gs : List Str) :
    rxRun ({ cls := .notSlash, quant := .plus, lazy := lz, group := grp } :: its) p = some gs ↔
      ∃ v q gs', p = v ++ q ∧ v ≠ [] ∧ '/' ∉ v ∧ rxRun its q = some gs' ∧
        gs = if grp then v :: gs' else gs' := by
  set it : RxItem := { cls := .notSlash, quant := .plus, lazy := lz, group := grp } with hit
  have hmem : ∀ n, n ∈ it.choices p ↔ 1 ≤ n ∧ n ≤ (p.takeWhile CharClass.notSlash.has).length := by
    intro n
    have : n ∈ it.choices p ↔ n ∈ (List.range (p.takeWhile CharClass.notSlash.has).length).map (· + 1) := by
      simp only [RxItem.choices, hit]
      split <;> simp
    rw [this]
    simp only [List.mem_map, List.mem_range]
    constructor
    · rintro ⟨a, ha, rfl⟩; omega
    · rintro ⟨h1, h2⟩; exact ⟨n - 1, by omega, by omega⟩
  rw [rxRun]
  constructor
  · intro h
    obtain ⟨n, hn, hf⟩ := List.exists_of_findSome?_eq_some h
    obtain ⟨gs', hr, rfl⟩ := Option.map_eq_some_iff.mp hf
    obtain ⟨h1, h2⟩ := (hmem n).mp hn
    have hle := (List.takeWhile_prefix (l := p) CharClass.notSlash.has).length_le
    refine ⟨p.take n, p.drop n, gs', (List.take_append_drop _ _).symm, ?_, take_notSlash h2, hr, rfl⟩
    intro he
    have := congrArg List.length he
    simp only [List.length_take, List.length_nil] at this
    omega
  · rintro ⟨v, q, gs', rfl, hv, hvs, hr, rfl⟩
    obtain ⟨q', rfl, hq'⟩ := H q gs' hr
    have htw : ((v ++ (post ++ q')).takeWhile CharClass.notSlash.has) = v ++ post := by
      rw [← List.append_assoc]
      exact takeWhile_slash (by simp [hvs, hpost]) hq'
    have huniq : ∀ n ∈ it.choices (v ++ (post ++ q')), ∀ gs'',
        rxRun its ((v ++ (post ++ q')).drop n) = some gs'' → n = v.length := by
      intro n hn gs'' h
      obtain ⟨h1, h2⟩ := (hmem n).mp hn
      obtain ⟨q'', he, hq''⟩ := H _ _ h
      have e := List.take_append_drop n (v ++ (post ++ q'))
      rw [he, ← List.append_assoc] at e
      have := takeWhile_slash (a := (v ++ (post ++ q')).take n ++ post) (q := q'') (by
        simp only [List.mem_append, not_or]; exact ⟨take_notSlash h2, hpost⟩) hq''
      rw [e, htw] at this
      have hlen := congrArg List.length this
      simp only [List.length_append, List.length_take] at hlen
      rw [htw] at h2
      simp only [List.length_append] at h2
      omega
    have hv1 : v.length ∈ it.choices (v ++ (post ++ q')) := by
      rw [hmem, htw]
      have : v.length ≠ 0 := by simp [hv]
      simp
      omega
    have hf : (rxRun its ((v ++ (post ++ q')).drop v.length)).map
        (fun gs => if it.group then (v ++ (post ++ q')).take v.length :: gs else gs) =
        some (if grp then v :: gs' else gs') := by
      rw [List.drop_left' rfl, List.take_left' rfl, hr]
      rfl
    cases hres : (it.choices (v ++ (post ++ q'))).findSome? fun n =>
        (rxRun its ((v ++ (post ++ q')).drop n)).map
          fun gs => if it.group then (v ++ (post ++ q')).take n :: gs else gs with
    | none =>
      have := List.findSome?_eq_none_iff.mp hres _ hv1
      rw [hf] at this
      simp at this
    | some r =>
      obtain ⟨n, hn, hfn⟩ := List.exists_of_findSome?_eq_some hres
      obtain ⟨gs'', hr'', rfl⟩ := Option.map_eq_some_iff.mp hfn
      have := huniq n hn gs'' hr''
      subst this
      rw [← hfn, hf]

/-- The items of a segment. -/
def segItems (lz grp : Bool) : Seg → List RxItem
  | .lit t => lits t
  | .par pre _ post =>
    lits pre ++ { cls := .notSlash, quant := .plus, lazy := lz, group := grp } :: lits post

/-- The items of a template. -/
def allItems (lz grp : Bool) (last : List RxItem) : List Seg → List RxItem
  | [] => last
  | [s] => segItems lz grp s ++ last
  | s :: s' :: ss => segItems lz grp s ++ slashItem :: allItems lz grp last (s' :: ss)

/-- The literal parts have no slash. -/
def Seg.NoSlash : Seg → Prop
  | .lit t => '/' ∉ t
  | .par pre _ post => '/' ∉ pre ∧ '/' ∉ post

/-- One segment, before something that is the end or starts with a slash. -/
theorem rxRun_seg {lz grp : Bool} {s : Seg} (hs : s.NoSlash) {its : List RxItem}
    (H : ∀ q gs, rxRun its q = some gs → ∀ c ∈ q.head?, c = '/') (p : Str) (gs : List Str) :
    rxRun (segItems lz grp s ++ its) p = some gs ↔
      ∃ t q bs gs', p = t ++ q ∧ Binds [s] [t] bs ∧ rxRun its q = some gs' ∧
        gs = (if grp then bs.map (·.2) else []) ++ gs' := by
  cases s with
  | lit t =>
    simp only [segItems]
    rw [rxRun_lits]
    constructor
    · rintro ⟨q, rfl, h⟩
      exact ⟨t, q, [], gs, rfl, .lit .nil, h, by simp⟩
    · rintro ⟨t', q, bs, gs', rfl, hb, h, rfl⟩
      cases hb with
      | lit hb =>
        cases hb
        exact ⟨q, rfl, by simpa using h⟩
  | par pre nm post =>
    obtain ⟨_, hpost⟩ := hs
    simp only [segItems, List.append_assoc, List.cons_append]
    rw [rxRun_lits]
    have H' : ∀ q gs, rxRun (lits post ++ its) q = some gs →
        ∃ q', q = post ++ q' ∧ ∀ c ∈ q'.head?, c = '/' := by
      intro q gs h
      obtain ⟨q', rfl, h'⟩ := (rxRun_lits _ _ _ _).mp h
      exact ⟨q', rfl, H _ _ h'⟩
    constructor
    · rintro ⟨q, rfl, h⟩
      obtain ⟨v, q', gs', rfl, hv, hvs, hr, rfl⟩ := (rxRun_plus hpost H' _ _).mp h
      obtain ⟨q'', rfl, hr'⟩ := (rxRun_lits _ _ _ _).mp hr
      refine ⟨pre ++ v ++ post, q'', [(nm, v)], gs', by simp, .par hv hvs .nil, hr', ?_⟩
      cases grp <;> simp
    · rintro ⟨t', q, bs, gs', rfl, hb, h, rfl⟩
      cases hb with
      | @par _ _ _ v _ _ bs hv hvs hb =>
        cases hb
        refine ⟨v ++ (post ++ q), by simp, (rxRun_plus hpost H' _ _).mpr
          ⟨v, post ++ q, gs', rfl, hv, hvs, (rxRun_lits _ _ _ _).mpr ⟨q, rfl, h⟩, ?_⟩⟩
        cases grp <;> simp

theorem binds_cons {s : Seg} {ss : List Seg} {qs : List Str} {bs : List (Str × Str)} :
    Binds (s :: ss) qs bs ↔ ∃ t bs₁ qs' bs₂, qs = t :: qs' ∧ bs = bs₁ ++ bs₂ ∧ Binds [s] [t] bs₁ ∧
      Binds ss qs' bs₂ := by
  constructor
  · intro h
    cases h with
    | lit h => exact ⟨_, [], _, _, rfl, rfl, .lit .nil, h⟩
    | par hv hs h => exact ⟨_, [_], _, _, rfl, rfl, .par hv hs .nil, h⟩
  · rintro ⟨t, bs₁, qs', bs₂, rfl, rfl, h₁, h₂⟩
    cases h₁ with
    | lit h => cases h; exact .lit h₂
    | par hv hs h => cases h; exact .par hv hs h₂

theorem binds_nil {qs : List Str} {bs : List (Str × Str)} : Binds [] qs bs ↔ qs = [] ∧ bs = [] := by
  constructor
  · intro h; cases h; exact ⟨rfl, rfl⟩
  · rintro ⟨rfl, rfl⟩; exact .nil

theorem rxRun_all {lz grp : Bool} {segs : List Seg} (hne : segs ≠ []) (hs : ∀ s ∈ segs, s.NoSlash)
    {last : List RxItem} (H : ∀ q gs, rxRun last q = some gs → gs = [] ∧ ∀ c ∈ q.head?, c = '/')
    (p : Str) (gs : List Str) :
    rxRun (allItems lz grp last segs) p = some gs ↔
      ∃ qs q bs, p = slashJoin qs ++ q ∧ Binds segs qs bs ∧ rxRun last q = some [] ∧
        gs = if grp then bs.map (·.2) else [] := by
  induction segs generalizing p gs with
  | nil => exact absurd rfl hne
  | cons s ss ih =>
    have h1 := hs s (by simp)
    cases ss with
    | nil =>
      rw [allItems, rxRun_seg h1 (fun q gs h => (H q gs h).2)]
      constructor
      · rintro ⟨t, q, bs, gs', rfl, hb, h, rfl⟩
        obtain ⟨rfl, _⟩ := H _ _ h
        exact ⟨[t], q, bs, rfl, hb, h, by simp⟩
      · rintro ⟨qs, q, bs, rfl, hb, h, rfl⟩
        obtain ⟨t, bs₁, qs', bs₂, rfl, rfl, hb₁, hb₂⟩ := binds_cons.mp hb
        obtain ⟨rfl, rfl⟩ := binds_nil.mp hb₂
        exact ⟨t, q, bs₁, [], rfl, hb₁, h, by simp⟩
    | cons s' ss =>
      have ih := ih (by simp) (fun s h => hs s (by simp [h]))
      have H' : ∀ q gs, rxRun (slashItem :: allItems lz grp last (s' :: ss)) q = some gs →
          ∀ c ∈ q.head?, c = '/' := by
        intro q gs h
        obtain ⟨q', rfl, _⟩ := (rxRun_char _ _ _ _).mp h
        simp
      rw [allItems, rxRun_seg h1 H']
      constructor
      · rintro ⟨t, q, bs, gs', rfl, hb, h, rfl⟩
        obtain ⟨q', rfl, h'⟩ := (rxRun_char _ _ _ _).mp h
        obtain ⟨qs, q, bs', rfl, hb', hl, rfl⟩ := (ih _ _).mp h'
        refine ⟨t :: qs, q, bs ++ bs', ?_, binds_cons.mpr ⟨t, bs, qs, bs', rfl, rfl, hb, hb'⟩, hl, ?_⟩
        · cases hb' <;> simp [slashJoin]
        · cases grp <;> simp
      · rintro ⟨qs, q, bs, rfl, hb, h, rfl⟩
        obtain ⟨t, bs₁, qs', bs₂, rfl, rfl, hb₁, hb₂⟩ := binds_cons.mp hb
        refine ⟨t, '/' :: (slashJoin qs' ++ q), bs₁, if grp then bs₂.map (·.2) else [], ?_, hb₁,
          (rxRun_char _ _ _ _).mpr ⟨_, rfl, (ih _ _).mpr ⟨qs', q, bs₂, rfl, hb₂, h, rfl⟩⟩, ?_⟩
        · cases hb₂ <;> simp [slashJoin]
        · cases grp <;> simp

/-- The items after the last segment. -/
def tailItems (tail : Bool) : List RxItem :=
  if tail then [slashItem, { cls := .any, quant := .star }] else []

theorem rxRun_any (p : Str) (gs : List Str) :
    rxRun [{ cls := .any, quant := .star }] p = some gs ↔ gs = [] ∧ '\n' ∉ p ∧ '\r' ∉ p := by
  have hmem : ∀ n, n ∈ RxItem.choices { cls := .any, quant := .star } p ↔
      n ≤ (p.takeWhile CharClass.any.has).length := by
    intro n
    simp [RxItem.choices, Nat.lt_succ_iff]
  constructor
  · intro h
    rw [rxRun] at h
    obtain ⟨n, hn, hf⟩ := List.exists_of_findSome?_eq_some h
    simp only [rxRun, Bool.false_eq_true, if_false, Option.map_id', Option.ite_none_right_eq_some,
      Option.some.injEq] at hf
    obtain ⟨hd, rfl⟩ := hf
    have hle := (hmem n).mp hn
    have hpl := List.drop_eq_nil_iff.mp hd
    have hpre := List.takeWhile_prefix (l := p) CharClass.any.has
    have heq := hpre.eq_of_length_le (by omega)
    have hall := List.all_eq_true.mp (List.all_takeWhile (p := CharClass.any.has) (l := p))
    rw [heq] at hall
    refine ⟨rfl, fun hm => ?_, fun hm => ?_⟩
    · have := hall _ hm
      simp [CharClass.has] at this
    · have := hall _ hm
      simp [CharClass.has] at this
  · rintro ⟨rfl, h1, h2⟩
    have heq : p.takeWhile CharClass.any.has = p := by
      have := List.takeWhile_append_of_pos (p := CharClass.any.has) (l₁ := p) (l₂ := []) (by
        intro c hc
        simp only [CharClass.has, Bool.and_eq_true, decide_eq_true_eq, ne_eq]
        exact ⟨fun h => h1 (h ▸ hc), fun h => h2 (h ▸ hc)⟩)
      simpa using this
    cases hres : rxRun [{ cls := .any, quant := .star }] p with
    | none =>
      rw [rxRun] at hres
      have := List.findSome?_eq_none_iff.mp hres p.length ((hmem _).mpr (by rw [heq]))
      simp [rxRun] at this
    | some r =>
      rw [rxRun] at hres
      obtain ⟨n, hn, hf⟩ := List.exists_of_findSome?_eq_some hres
      simp only [rxRun, Bool.false_eq_true, if_false, Option.map_id', Option.ite_none_right_eq_some,
        Option.some.injEq] at hf
      rw [hf.2]

theorem rxRun_tail (tail : Bool) (q : Str) (gs : List Str) :
    rxRun (tailItems tail) q = some gs ↔
      gs = [] ∧ if tail then ∃ r, q = '/' :: r ∧ '\n' ∉ r ∧ '\r' ∉ r else q = [] := by
  cases tail with
  | false => simp [tailItems, rxRun, and_comm, eq_comm]
  | true =>
    simp only [tailItems, if_true]
    rw [slashItem, rxRun_char]
    simp only [rxRun_any]
    constructor
    · rintro ⟨r, rfl, rfl, h⟩; exact ⟨rfl, r, rfl, h⟩
    · rintro ⟨rfl, r, rfl, h⟩; exact ⟨r, rfl, rfl, h⟩

/-- What the items of a template match. -/
theorem rxRun_template {lz grp tail : Bool} {segs : List Seg} (hne : segs ≠ [])
    (hs : ∀ s ∈ segs, s.NoSlash) (p : Str) (gs : List Str) :
    rxRun (allItems lz grp (tailItems tail) segs) p = some gs ↔
      ∃ bs, Instance segs tail p bs ∧ gs = if grp then bs.map (·.2) else [] := by
  rw [rxRun_all hne hs]
  · constructor
    · rintro ⟨qs, q, bs, rfl, hb, h, rfl⟩
      obtain ⟨_, h'⟩ := (rxRun_tail _ _ _).mp h
      refine ⟨bs, ⟨qs, hb, ?_⟩, rfl⟩
      cases tail with
      | false => simpa using h'
      | true =>
        obtain ⟨r, rfl, h'⟩ := h'
        exact ⟨r, rfl, h'⟩
    · rintro ⟨bs, ⟨qs, hb, h⟩, rfl⟩
      cases tail with
      | false => exact ⟨qs, [], bs, by simpa using h, hb, (rxRun_tail _ _ _).mpr ⟨rfl, rfl⟩, rfl⟩
      | true =>
        obtain ⟨r, h, hr⟩ := h
        exact ⟨qs, '/' :: r, bs, h, hb, (rxRun_tail _ _ _).mpr ⟨rfl, r, rfl, hr⟩, rfl⟩
  · intro q gs h
    obtain ⟨h1, h2⟩ := (rxRun_tail _ _ _).mp h
    refine ⟨h1, ?_⟩
    cases tail with
    | false => simp only [Bool.false_eq_true, if_false] at h2; subst h2; simp
    | true => obtain ⟨r, rfl, _⟩ := h2; simp

/-! ## Reading a regular expression -/

/-- The text does not start with a quantifier. -/
def NoQuant (s : Str) : Prop := ∀ c ∈ s.head?, c ≠ '*' ∧ c ≠ '+' ∧ c ≠ '?'

theorem rxQuant_none {s : Str} (h : NoQuant s) : rxQuant s = (.one, false, s) := by
  unfold rxQuant
  split <;> first | rfl | (exfalso; have := h _ rfl; simp at this)

theorem rxItem_plain {c : Char} {s : Str} (hc : rxPlain c = true) (hs : NoQuant s) :
    rxItem (c :: s) = some ({ cls := .char c }, s) := by
  have hne : ∀ d, rxPlain d = false → c ≠ d := by rintro d hd rfl; rw [hc] at hd; simp at hd
  have h1 := hne '(' rfl
  have h2 : rxClass (c :: s) = some (.char c, s) := by
    unfold rxClass
    split
    · rename_i heq; exact absurd (List.cons.inj heq).1 (hne _ rfl)
    · rename_i heq; exact absurd (List.cons.inj heq).1 (hne _ rfl)
    · rename_i heq; exact absurd (List.cons.inj heq).1 (hne _ rfl)
    · rename_i heq; exact absurd (List.cons.inj heq).1 (hne _ rfl)
    · rename_i heq
      obtain ⟨rfl, rfl⟩ := List.cons.inj heq
      simp [hc]
    · rename_i heq; simp at heq
  unfold rxItem
  split
  · rename_i heq; exact absurd (List.cons.inj heq).1 h1
  · rw [h2]
    simp [rxQuant_none hs]

/-- The text reads as the items. -/
def Reads (s : Str) (its : List RxItem) : Prop := ∀ fuel, s.length ≤ fuel → rxParse fuel s = some its

theorem reads_nil : Reads [] [] := fun fuel _ => by cases fuel <;> rfl

theorem reads_item {x s : Str} {it : RxItem} {its : List RxItem} (hx : x ≠ [])
    (h : rxItem (x ++ s) = some (it, s)) (hs : Reads s its) : Reads (x ++ s) (it :: its) := by
  obtain ⟨c, x, rfl⟩ := List.exists_cons_of_ne_nil hx
  intro fuel hf
  simp only [List.cons_append, List.length_cons, List.length_append] at hf h ⊢
  obtain ⟨fuel, rfl⟩ : ∃ f, fuel = f + 1 := ⟨fuel - 1, by omega⟩
  rw [rxParse.eq_def]
  simp only [h, Option.bind_eq_bind, Option.bind_some, hs fuel (by omega)]

theorem reads_lits {t s : Str} {its : List RxItem} (ht : ∀ c ∈ t, rxPlain c = true) (hq : NoQuant s)
    (hs : Reads s its) : Reads (t ++ s) (lits t ++ its) := by
  induction t with
  | nil => exact hs
  | cons c t ih =>
    have ih := ih (fun c h => ht c (by simp [h]))
    have hq : NoQuant (t ++ s) := by
      cases t with
      | nil => exact hq
      | cons d t =>
        intro e he
        simp only [List.cons_append, List.head?_cons, Option.mem_def, Option.some.injEq] at he
        subst he
        have := ht d (by simp)
        refine ⟨?_, ?_, ?_⟩ <;> (rintro rfl; revert this; decide)
    exact reads_item (x := [c]) (by simp) (rxItem_plain (ht c (by simp)) hq) ih

theorem noQuant_plain {t s : Str} (ht : ∀ c ∈ t, rxPlain c = true) (hq : NoQuant s) : NoQuant (t ++ s) := by
  cases t with
  | nil => exact hq
  | cons d t =>
    intro e he
    simp only [List.cons_append, List.head?_cons, Option.mem_def, Option.some.injEq] at he
    subst he
    have := ht d (by simp)
    refine ⟨?_, ?_, ?_⟩ <;> (rintro rfl; revert this; decide)

/-- The text that replaces a parameter. -/
structure IsRep (rep : Str) (lz grp : Bool) : Prop where
  ne : rep ≠ []
  item : ∀ s, NoQuant s → rxItem (rep ++ s) =
    some ({ cls := .notSlash, quant := .plus, lazy := lz, group := grp }, s)
  head : ∀ s, NoQuant (rep ++ s)
  braces : '{' ∉ rep ∧ '}' ∉ rep

theorem rep_plain : IsRep c!"[^/]+" false false where
  ne := by decide
  item s hs := by
    have : rxQuant ('+' :: s) = (.plus, false, s) := by
      unfold rxQuant
      split <;> first | (simp_all; done) | (exfalso; simp_all [NoQuant])
    simp [rxItem, rxClass, this]
  head s := by simp [NoQuant]
  braces := by decide

theorem rep_group : IsRep c!"([^/]+)" false true where
  ne := by decide
  item s hs := by simp [rxItem, rxClass, rxQuant]
  head s := by simp [NoQuant]
  braces := by decide

theorem rep_lazy : IsRep c!"([^/]+?)" true true where
  ne := by decide
  item s hs := by simp [rxItem, rxClass, rxQuant]
  head s := by simp [NoQuant]
  braces := by decide

/-- The text of a segment in the regular expression. -/
def Seg.rxText (rep : Str) : Seg → Str
  | .lit t => t
  | .par pre _ post => pre ++ rep ++ post

/-- The literal parts are of characters that stand for themselves. -/
def Seg.Plain : Seg → Prop
  | .lit t => ∀ c ∈ t, rxPlain c = true
  | .par pre _ post => (∀ c ∈ pre, rxPlain c = true) ∧ ∀ c ∈ post, rxPlain c = true

theorem reads_seg {rep : Str} {lz grp : Bool} (hr : IsRep rep lz grp) {sg : Seg} (hsg : sg.Plain) {s : Str}
    {its : List RxItem} (hq : NoQuant s) (hs : Reads s its) :
    Reads (sg.rxText rep ++ s) (segItems lz grp sg ++ its) := by
  cases sg with
  | lit t => exact reads_lits hsg hq hs
  | par pre nm post =>
    simp only [Seg.rxText, segItems, List.append_assoc, List.cons_append]
    exact reads_lits hsg.1 (hr.head _) (reads_item hr.ne (hr.item _ (noQuant_plain hsg.2 hq))
      (reads_lits hsg.2 hq hs))

theorem reads_all {rep : Str} {lz grp : Bool} (hr : IsRep rep lz grp) {segs : List Seg} (hne : segs ≠ [])
    (hsg : ∀ s ∈ segs, s.Plain) {s : Str} {its : List RxItem} (hq : NoQuant s) (hs : Reads s its) :
    Reads (slashJoin (segs.map (·.rxText rep)) ++ s) (allItems lz grp its segs) := by
  induction segs with
  | nil => exact absurd rfl hne
  | cons sg segs ih =>
    cases segs with
    | nil => exact reads_seg hr (hsg _ (by simp)) hq hs
    | cons sg' segs =>
      have ih := ih (by simp) (fun s h => hsg s (by simp [h]))
      have hx : NoQuant ('/' :: (slashJoin ((sg' :: segs).map (·.rxText rep)) ++ s)) := by simp [NoQuant]
      simp only [List.map_cons, slashJoin, allItems, List.append_assoc, List.cons_append] at ih hx ⊢
      refine reads_seg hr (hsg _ (by simp)) hx ?_
      refine reads_item (x := c!"/") (by simp) (rxItem_plain rfl ?_) ih
      -- the text after the slash does not start with a quantifier
      have hplain := hsg sg' (by simp)
      have key : ∀ rest, NoQuant rest → NoQuant (sg'.rxText rep ++ rest) := by
        intro rest hrest
        cases sg' with
        | lit t => exact noQuant_plain hplain hrest
        | par pre nm post =>
          simp only [Seg.rxText, List.append_assoc]
          exact noQuant_plain hplain.1 (hr.head _)
      cases segs with
      | nil => exact key _ hq
      | cons sg'' segs =>
        have := key ('/' :: (slashJoin (sg''.rxText rep :: segs.map (·.rxText rep)) ++ s)) ?_
        · rw [← List.cons_append, ← List.append_assoc] at this
          exact this
        intro c hc
        simp only [List.head?_cons, Option.mem_def, Option.some.injEq] at hc
        subst hc; decide

theorem reads_tail (tail : Bool) :
    Reads (if tail then c!"/.*" else []) (tailItems tail) ∧ NoQuant (if tail then c!"/.*" else []) := by
  cases tail with
  | false => exact ⟨reads_nil, by simp [NoQuant]⟩
  | true =>
    refine ⟨?_, by simp [NoQuant]⟩
    exact reads_item (x := c!"/") (by simp) (rxItem_plain rfl (by simp [NoQuant]))
      (reads_item (x := c!".*") (s := []) (by simp) rfl reads_nil)

theorem rxMatch_template {rep : Str} {lz grp : Bool} (hr : IsRep rep lz grp) {segs : List Seg}
    (hne : segs ≠ []) (hsg : ∀ s ∈ segs, s.Plain) (tail : Bool) (rx : RxLib) (p : Str) :
    rxMatch rx (slashJoin (segs.map (·.rxText rep)) ++ if tail then c!"/.*" else []) p =
      .ok (rxRun (allItems lz grp (tailItems tail) segs) p) := by
  have h := reads_all hr hne hsg (reads_tail tail).2 (reads_tail tail).1 _ (le_refl _)
  rw [rxMatch, h]

/-! ## Making the regular expression -/

theorem replacePattern_absent {x : Char} {pat rep : Str} {a s : Str} (h : x ∉ a) :
    replacePattern (x :: pat) rep 0 (a ++ s) = a ++ replacePattern (x :: pat) rep 0 s := by
  induction a with
  | nil => rfl
  | cons c a ih =>
    simp only [List.mem_cons, not_or] at h
    rw [List.cons_append, replacePattern, if_neg (by simp [List.isPrefixOf, h.1]), ih h.2]
    rfl

theorem replacePattern_absent' {x : Char} {pat rep : Str} {a : Str} (h : x ∉ a) :
    replacePattern (x :: pat) rep 0 a = a := by
  have := replacePattern_absent (pat := pat) (rep := rep) (s := []) h
  simpa [replacePattern] using this

theorem escapeBraces_none {a : Str} (h1 : '{' ∉ a) (h2 : '}' ∉ a) : escapeBraces a = a := by
  rw [escapeBraces, replacePattern_absent' h1, replacePattern_absent' h2]

/-- A slash that is not followed by a star stays. -/
theorem prepare_slash {s : Str} (h : ∀ c ∈ s.head?, c ≠ '*') :
    prepareWildCard ('/' :: s) = '/' :: prepareWildCard s := by
  rw [prepareWildCard, replacePattern, if_neg]
  · rfl
  · cases s with
    | nil => simp [List.isPrefixOf]
    | cons c s =>
      have := h c (by simp)
      simp [List.isPrefixOf, Ne.symm this]

/-- Texts of segments: no slash, no star at the start. -/
theorem prepare_join {ts : List Str} (h : ∀ t ∈ ts, '/' ∉ t ∧ ∀ c ∈ t.head?, c ≠ '*') (hne : ts ≠ [])
    (tail : Bool) :
    prepareWildCard (slashJoin ts ++ if tail then c!"/*" else []) =
      slashJoin ts ++ if tail then c!"/.*" else [] := by
  have htail : prepareWildCard (if tail then c!"/*" else []) = if tail then c!"/.*" else [] := by
    cases tail <;> rfl
  have hhead : ∀ c ∈ (if tail then c!"/*" else []).head?, c ≠ '*' := by cases tail <;> simp
  induction ts with
  | nil => exact absurd rfl hne
  | cons t ts ih =>
    obtain ⟨h1, h2⟩ := h t (by simp)
    cases ts with
    | nil =>
      simp only [slashJoin]
      rw [prepareWildCard, replacePattern_absent h1]
      exact congrArg _ htail
    | cons t' ts =>
      have ih := ih (fun t h' => h t (by simp [h'])) (by simp)
      simp only [slashJoin, List.append_assoc, List.cons_append]
      rw [prepareWildCard, replacePattern_absent h1]
      have hx : ∀ c ∈ (slashJoin (t' :: ts) ++ if tail then c!"/*" else []).head?, c ≠ '*' := by
        have ht' := (h t' (by simp)).2
        intro c hc
        cases t' with
        | nil =>
          cases ts with
          | nil => exact hhead c (by simpa [slashJoin] using hc)
          | cons t'' ts =>
            simp only [slashJoin, List.nil_append, List.cons_append, List.head?_cons, Option.mem_def,
              Option.some.injEq] at hc
            subst hc; decide
        | cons d t' =>
          cases ts <;>
          · simp only [slashJoin, List.cons_append, List.head?_cons, Option.mem_def,
              Option.some.injEq] at hc
            subst hc
            exact ht' _ rfl
      have := prepare_slash hx
      rw [prepareWildCard] at this
      rw [this, ih]

theorem replaceColon_absent {rep a s : Str} (h : ':' ∉ a) :
    replaceColon rep false (a ++ s) = a ++ replaceColon rep false s := by
  induction a with
  | nil => rfl
  | cons c a ih =>
    simp only [List.mem_cons, not_or] at h
    rw [List.cons_append, replaceColon, if_neg (fun hc => h.1 hc.1.symm), ih h.2]
    rfl

theorem replaceColon_skip {rep a s : Str} (h : '/' ∉ a) (hs : ∀ c ∈ s.head?, c = '/') :
    replaceColon rep true (a ++ s) = replaceColon rep false s := by
  induction a with
  | nil =>
    cases s with
    | nil => rfl
    | cons c s =>
      have := hs c (by simp)
      subst this
      simp [replaceColon]
  | cons c a ih =>
    simp only [List.mem_cons, not_or] at h
    rw [List.cons_append, replaceColon, if_neg (fun hc => h.1 hc.symm), ih h.2]

theorem replaceColon_name {rep nm s : Str} (hne : nm ≠ []) (h : '/' ∉ nm) (hs : ∀ c ∈ s.head?, c = '/') :
    replaceColon rep false (':' :: nm ++ s) = rep ++ replaceColon rep false s := by
  obtain ⟨c, nm, rfl⟩ := List.exists_cons_of_ne_nil hne
  have hc : c ≠ '/' := by rintro rfl; simp at h
  rw [List.cons_append, replaceColon, if_pos (by simp [hc]), replaceColon_skip h hs]

/-- The names of a template with parameters `:name`. -/
theorem colonNames_absent {a s : Str} (h : ':' ∉ a) : colonNames none (a ++ s) = colonNames none s := by
  induction a with
  | nil => rfl
  | cons c a ih =>
    simp only [List.mem_cons, not_or] at h
    rw [List.cons_append, colonNames, if_neg (fun hc => h.1 hc.1.symm), ih h.2]

theorem colonNames_skip {a s nm : Str} (h : '/' ∉ a) (hs : ∀ c ∈ s.head?, c = '/') :
    colonNames (some nm) (a ++ s) = (nm ++ a) :: colonNames none s := by
  induction a generalizing nm with
  | nil =>
    cases s with
    | nil => simp [colonNames]
    | cons c s =>
      have := hs c (by simp)
      subst this
      simp [colonNames]
  | cons c a ih =>
    simp only [List.mem_cons, not_or] at h
    rw [List.cons_append, colonNames, if_neg (fun hc => h.1 hc.symm), ih h.2]
    simp

theorem colonNames_name {nm s : Str} (hne : nm ≠ []) (h : '/' ∉ nm) (hs : ∀ c ∈ s.head?, c = '/') :
    colonNames none (':' :: nm ++ s) = nm :: colonNames none s := by
  obtain ⟨c, nm, rfl⟩ := List.exists_cons_of_ne_nil hne
  have hc : c ≠ '/' := by rintro rfl; simp at h
  rw [List.cons_append, colonNames, if_pos (by simp [hc]), colonNames_skip h hs]
  simp

/-- The name of a segment, if any. -/
def Seg.names : Seg → List Str
  | .lit _ => []
  | .par _ nm _ => [nm]

theorem replaceColon_seg {rep : Str} {sg : Seg} (h : sg.Colon) {s : Str} (hs : ∀ c ∈ s.head?, c = '/') :
    replaceColon rep false (sg.colonText ++ s) = sg.rxText rep ++ replaceColon rep false s ∧
    colonNames none (sg.colonText ++ s) = sg.names ++ colonNames none s := by
  cases sg with
  | lit t =>
    have ht : ':' ∉ t := fun hm => (h _ hm).2 rfl
    exact ⟨replaceColon_absent ht, colonNames_absent ht⟩
  | par pre nm post =>
    obtain ⟨h1, h2, h3, rfl⟩ := h
    have ht : ':' ∉ pre := fun hm => (h1 _ hm).2 rfl
    simp only [Seg.colonText, Seg.rxText, Seg.names, List.append_assoc, List.nil_append]
    constructor
    · rw [replaceColon_absent ht, replaceColon_name h2 h3 hs]
    · rw [colonNames_absent ht, colonNames_name h2 h3 hs]
      rfl

theorem replaceColon_slash {rep s : Str} :
    replaceColon rep false ('/' :: s) = '/' :: replaceColon rep false s ∧
      colonNames none ('/' :: s) = colonNames none s := by
  constructor <;> simp [replaceColon, colonNames]

theorem replaceColon_join {rep : Str} {segs : List Seg} (h : ∀ s ∈ segs, s.Colon) (hne : segs ≠ []) {s : Str}
    (hs : ∀ c ∈ s.head?, c = '/') (hsr : replaceColon rep false s = s) (hsn : colonNames none s = []) :
    replaceColon rep false (slashJoin (segs.map (·.colonText)) ++ s) =
      slashJoin (segs.map (·.rxText rep)) ++ s ∧
    colonNames none (slashJoin (segs.map (·.colonText)) ++ s) = segs.flatMap (·.names) := by
  induction segs with
  | nil => exact absurd rfl hne
  | cons sg segs ih =>
    have hsg := h sg (by simp)
    cases segs with
    | nil =>
      have := replaceColon_seg (rep := rep) hsg hs
      rw [hsr, hsn] at this
      simpa [slashJoin] using this
    | cons sg' segs =>
      have ih := ih (fun s h' => h s (by simp [h'])) (by simp)
      simp only [List.map_cons, slashJoin, List.append_assoc, List.cons_append] at ih ⊢
      have := replaceColon_seg (rep := rep) hsg (s := '/' :: (slashJoin (sg'.colonText :: segs.map (·.colonText)) ++ s))
        (by simp)
      rw [(replaceColon_slash (rep := rep)).1, (replaceColon_slash (rep := rep)).2, ih.1, ih.2] at this
      exact this

/-! ## Parameters in braces -/

theorem placeName_name {nm s : Str} (hne : nm ≠ []) (h1 : '/' ∉ nm) (h2 : '}' ∉ nm) :
    placeName (nm ++ '}' :: s) = some nm := by
  obtain ⟨c, nm, rfl⟩ := List.exists_cons_of_ne_nil hne
  simp only [List.mem_cons, not_or] at h1 h2
  have htw : (nm ++ '}' :: s).takeWhile (fun d => d ≠ '}' && d ≠ '/') = nm := by
    rw [List.takeWhile_append_of_pos]
    · simp
    · intro d hd
      simp only [ne_eq, Bool.and_eq_true, decide_eq_true_eq]
      exact ⟨fun h => h2.2 (h ▸ hd), fun h => h1.2 (h ▸ hd)⟩
  simp only [List.cons_append, placeName]
  rw [if_neg (fun h => h1.1 h.symm), htw]
  simp

theorem replacePlaces_skip {rep a s : Str} :
    replacePlaces rep a.length (a ++ s) = replacePlaces rep 0 s := by
  induction a with
  | nil => rfl
  | cons c a ih => rw [List.cons_append, List.length_cons, replacePlaces, ih]

theorem placeNames_skip {a s : Str} : placeNames a.length (a ++ s) = placeNames 0 s := by
  induction a with
  | nil => rfl
  | cons c a ih => rw [List.cons_append, List.length_cons, placeNames, ih]

theorem greedyTokens_skip {a s : Str} : greedyTokens a.length (a ++ s) = greedyTokens 0 s := by
  induction a with
  | nil => rfl
  | cons c a ih => rw [List.cons_append, List.length_cons, greedyTokens, ih]

theorem places_absent {rep a s : Str} (h : '{' ∉ a) :
    replacePlaces rep 0 (a ++ s) = a ++ replacePlaces rep 0 s ∧
      placeNames 0 (a ++ s) = placeNames 0 s ∧ greedyTokens 0 (a ++ s) = greedyTokens 0 s := by
  induction a with
  | nil => exact ⟨rfl, rfl, rfl⟩
  | cons c a ih =>
    simp only [List.mem_cons, not_or] at h
    have hc : ¬ c = '{' := fun hc => h.1 hc.symm
    obtain ⟨i1, i2, i3⟩ := ih h.2
    simp only [List.cons_append, replacePlaces, placeNames, greedyTokens, hc, if_false, i1, i2, i3, and_self]

theorem greedyToken_name {nm post s : Str} (hne : nm ≠ []) (h1 : '/' ∉ nm) (h2 : '/' ∉ post)
    (h3 : '}' ∉ post) (hs : ∀ c ∈ s.head?, c = '/') :
    greedyToken (nm ++ '}' :: post ++ s) = some nm := by
  have htw : (nm ++ '}' :: post ++ s).takeWhile (fun c => decide (c ≠ '/')) = nm ++ '}' :: post := by
    have := takeWhile_slash (a := nm ++ '}' :: post) (q := s) (by simp [h1, h2]) hs
    exact this
  unfold greedyToken
  dsimp only
  rw [htw]
  have hlen : nm.length ≠ 0 := by simp [hne]
  have hat : (nm ++ '}' :: post)[nm.length]? = some '}' := by simp
  cases hf : (List.range (nm ++ '}' :: post).length).reverse.find?
      (fun i => i ≥ 1 && (nm ++ '}' :: post)[i]? = some '}') with
  | none =>
    have := List.find?_eq_none.mp hf nm.length (by simp)
    exact absurd (by simp only [hat, decide_true, Bool.and_true, decide_eq_true_eq]; omega) this
  | some i =>
    have hi := List.find?_some hf
    simp only [ge_iff_le, Bool.and_eq_true, decide_eq_true_eq] at hi
    -- no later index has a brace
    have hle : i ≤ nm.length := by
      by_contra hgt
      have : (nm ++ '}' :: post)[i]? = post[i - nm.length - 1]? := by
        rw [List.getElem?_append_right (by omega)]
        obtain ⟨k, hk⟩ : ∃ k, i - nm.length = k + 1 := ⟨i - nm.length - 1, by omega⟩
        rw [hk]; simp
      rw [this] at hi
      exact h3 (List.mem_of_getElem? hi.2)
    have hge : nm.length ≤ i := by
      obtain ⟨_, as, bs, hsplit, hbefore⟩ := List.find?_eq_some_iff_append.mp hf
      by_contra hlt
      have hmem : nm.length ∈ as := by
        have hin : nm.length ∈ (List.range (nm ++ '}' :: post).length).reverse := by simp
        rw [hsplit] at hin
        rcases List.mem_append.mp hin with h | h
        · exact h
        · exfalso
          have hsorted : ((List.range (nm ++ '}' :: post).length).reverse).Pairwise (· > ·) := by
            rw [List.pairwise_reverse]
            exact List.pairwise_lt_range
          rw [hsplit] at hsorted
          have := (List.pairwise_append.mp hsorted).2.1
          rcases List.mem_cons.mp h with h | h
          · omega
          · have := (List.pairwise_cons.mp this).1 _ h
            omega
      have := hbefore _ hmem
      simp only [hat, decide_true, Bool.and_true, Bool.not_eq_true', decide_eq_false_iff_not] at this
      omega
    have : i = nm.length := by omega
    subst this
    simp

theorem places_seg {rep : Str} {sg : Seg} (h : sg.Braces) {s : Str} (hs : ∀ c ∈ s.head?, c = '/') :
    replacePlaces rep 0 (sg.braceText ++ s) = sg.rxText rep ++ replacePlaces rep 0 s ∧
    placeNames 0 (sg.braceText ++ s) = sg.names ++ placeNames 0 s ∧
    greedyTokens 0 (sg.braceText ++ s) = sg.names ++ greedyTokens 0 s := by
  cases sg with
  | lit t =>
    have ht : '{' ∉ t := fun hm => h _ hm (by decide)
    exact places_absent ht
  | par pre nm post =>
    obtain ⟨h1, h2, h3, h4, h5⟩ := h
    have ht : '{' ∉ pre := fun hm => h1 _ hm (by decide)
    have ht' : '{' ∉ post := fun hm => h5 _ hm (by decide)
    have hp1 : '/' ∉ post := fun hm => h5 _ hm (by decide)
    have hp2 : '}' ∉ post := fun hm => h5 _ hm (by decide)
    simp only [Seg.braceText, Seg.rxText, Seg.names, List.append_assoc, List.cons_append]
    obtain ⟨a1, a2, a3⟩ := places_absent (rep := rep) (s := '{' :: (nm ++ '}' :: (post ++ s))) ht
    obtain ⟨b1, b2, b3⟩ := places_absent (rep := rep) (s := s) ht'
    have e : nm ++ '}' :: (post ++ s) = (nm ++ c!"}") ++ (post ++ s) := by simp
    have el : nm.length + 1 = (nm ++ c!"}").length := by simp
    have hpn := placeName_name (s := post ++ s) h2 h3 h4
    have hgt := greedyToken_name (post := post) h2 h3 hp1 hp2 hs
    rw [List.append_assoc, List.cons_append] at hgt
    refine ⟨?_, ?_, ?_⟩
    · rw [a1, replacePlaces, if_pos rfl, hpn]
      simp only
      rw [e, el, replacePlaces_skip, b1]
    · rw [a2, placeNames, if_pos rfl, hpn]
      simp only
      rw [e, el, placeNames_skip, b2]
      rfl
    · rw [a3, greedyTokens, if_pos rfl, hgt]
      simp only
      rw [e, el, greedyTokens_skip, b3]
      rfl

theorem places_join {rep : Str} {segs : List Seg} (h : ∀ s ∈ segs, s.Braces) (hne : segs ≠ []) {s : Str}
    (hs : ∀ c ∈ s.head?, c = '/') (hsr : replacePlaces rep 0 s = s) (hsn : placeNames 0 s = [])
    (hsg : greedyTokens 0 s = []) :
    replacePlaces rep 0 (slashJoin (segs.map (·.braceText)) ++ s) =
      slashJoin (segs.map (·.rxText rep)) ++ s ∧
    placeNames 0 (slashJoin (segs.map (·.braceText)) ++ s) = segs.flatMap (·.names) ∧
    greedyTokens 0 (slashJoin (segs.map (·.braceText)) ++ s) = segs.flatMap (·.names) := by
  induction segs with
  | nil => exact absurd rfl hne
  | cons sg segs ih =>
    have hb := h sg (by simp)
    cases segs with
    | nil =>
      have := places_seg (rep := rep) hb hs
      rw [hsr, hsn, hsg] at this
      simpa [slashJoin] using this
    | cons sg' segs =>
      have ih := ih (fun s h' => h s (by simp [h'])) (by simp)
      simp only [List.map_cons, slashJoin, List.append_assoc, List.cons_append] at ih ⊢
      have := places_seg (rep := rep) hb (s := '/' :: (slashJoin (sg'.braceText :: segs.map (·.braceText)) ++ s))
        (by simp)
      have hsl := places_absent (rep := rep) (a := c!"/")
        (s := slashJoin (sg'.braceText :: segs.map (·.braceText)) ++ s) (by decide)
      rw [List.singleton_append] at hsl
      rw [hsl.1, hsl.2.1, hsl.2.2, ih.1, ih.2.1, ih.2.2] at this
      exact this

/-! ## The functions on templates -/

theorem rxPlain_of_ordinary {c : Char} (h : Ordinary c) : rxPlain c = true := by
  simp only [Ordinary, rxPlain] at *
  simp only [List.mem_cons, not_or] at h
  simp only [decide_eq_true_eq, List.mem_cons, not_or]
  tauto

theorem slash_of_ordinary {t : Str} (h : ∀ c ∈ t, Ordinary c) : '/' ∉ t := fun hm => h _ hm (by decide)

theorem star_of_ordinary {t : Str} (h : ∀ c ∈ t, Ordinary c) : '*' ∉ t := fun hm => h _ hm (by decide)

theorem Seg.Colon.noSlash {sg : Seg} (h : sg.Colon) : sg.NoSlash := by
  cases sg with
  | lit t => exact slash_of_ordinary fun c hc => (h c hc).1
  | par pre nm post =>
    obtain ⟨h1, _, _, rfl⟩ := h
    exact ⟨slash_of_ordinary fun c hc => (h1 c hc).1, by simp⟩

theorem Seg.Colon.plain {sg : Seg} (h : sg.Colon) : sg.Plain := by
  cases sg with
  | lit t => exact fun c hc => rxPlain_of_ordinary (h c hc).1
  | par pre nm post =>
    obtain ⟨h1, _, _, rfl⟩ := h
    exact ⟨fun c hc => rxPlain_of_ordinary (h1 c hc).1, by simp⟩

theorem head_append_ne {x y : Char} {a s : Str} (ha : y ∉ a) (hx : x ≠ y) :
    ∀ c ∈ (a ++ x :: s).head?, c ≠ y := by
  intro c hc
  cases a with
  | nil =>
    simp only [List.nil_append, List.head?_cons, Option.mem_def, Option.some.injEq] at hc
    subst hc; exact hx
  | cons d a =>
    simp only [List.cons_append, List.head?_cons, Option.mem_def, Option.some.injEq] at hc
    subst hc
    rintro rfl
    simp at ha

theorem head_ne {y : Char} {a : Str} (ha : y ∉ a) : ∀ c ∈ a.head?, c ≠ y := by
  intro c hc
  rintro rfl
  exact ha (List.mem_of_mem_head? hc)

theorem Seg.Colon.text {sg : Seg} (h : sg.Colon) :
    '/' ∉ sg.colonText ∧ ∀ c ∈ sg.colonText.head?, c ≠ '*' := by
  cases sg with
  | lit t =>
    exact ⟨slash_of_ordinary fun c hc => (h c hc).1, head_ne (star_of_ordinary fun c hc => (h c hc).1)⟩
  | par pre nm post =>
    obtain ⟨h1, _, h3, rfl⟩ := h
    have hs := slash_of_ordinary fun c hc => (h1 c hc).1
    simp only [Seg.colonText, List.append_nil]
    exact ⟨by simp [hs, h3], head_append_ne (star_of_ordinary fun c hc => (h1 c hc).1) (by decide)⟩

theorem Seg.Braces.noSlash {sg : Seg} (h : sg.Braces) : sg.NoSlash := by
  cases sg with
  | lit t => exact slash_of_ordinary h
  | par pre nm post =>
    obtain ⟨h1, _, _, _, h5⟩ := h
    exact ⟨slash_of_ordinary h1, slash_of_ordinary h5⟩

theorem Seg.Braces.plain {sg : Seg} (h : sg.Braces) : sg.Plain := by
  cases sg with
  | lit t => exact fun c hc => rxPlain_of_ordinary (h c hc)
  | par pre nm post =>
    obtain ⟨h1, _, _, _, h5⟩ := h
    exact ⟨fun c hc => rxPlain_of_ordinary (h1 c hc), fun c hc => rxPlain_of_ordinary (h5 c hc)⟩

theorem Seg.Braces.text {sg : Seg} (h : sg.Braces) :
    '/' ∉ sg.braceText ∧ ∀ c ∈ sg.braceText.head?, c ≠ '*' := by
  cases sg with
  | lit t => exact ⟨slash_of_ordinary h, head_ne (star_of_ordinary h)⟩
  | par pre nm post =>
    obtain ⟨h1, _, h3, _, h5⟩ := h
    have hs := slash_of_ordinary h1
    have hs' := slash_of_ordinary h5
    simp only [Seg.braceText, List.append_assoc, List.cons_append]
    exact ⟨by simp [hs, h3, hs'], head_append_ne (star_of_ordinary h1) (by decide)⟩

theorem not_mem_slashJoin {x : Char} (hx : x ≠ '/') {ts : List Str} (h : ∀ t ∈ ts, x ∉ t) :
    x ∉ slashJoin ts := by
  induction ts with
  | nil => simp [slashJoin]
  | cons t ts ih =>
    cases ts with
    | nil => exact h t (by simp)
    | cons t' ts =>
      simp only [slashJoin, List.mem_append, List.mem_cons, not_or]
      exact ⟨h t (by simp), hx, ih fun t ht => h t (by simp [ht])⟩

theorem not_mem_rxText {x : Char} (hx : rxPlain x = false) {rep : Str} (hr : x ∉ rep) {sg : Seg} (h : sg.Plain) :
    x ∉ sg.rxText rep := by
  have key : ∀ t : Str, (∀ c ∈ t, rxPlain c = true) → x ∉ t := by
    intro t ht hm
    have := ht x hm
    rw [hx] at this
    simp at this
  cases sg with
  | lit t => exact key _ h
  | par pre nm post => simp [Seg.rxText, key _ h.1, key _ h.2, hr]

theorem escape_rx {rep : Str} {lz grp : Bool} (hr : IsRep rep lz grp) {segs : List Seg}
    (hsg : ∀ s ∈ segs, s.Plain) (tail : Bool) :
    escapeBraces (slashJoin (segs.map (·.rxText rep)) ++ if tail then c!"/.*" else []) =
      slashJoin (segs.map (·.rxText rep)) ++ if tail then c!"/.*" else [] := by
  apply escapeBraces_none
  · simp only [List.mem_append, not_or]
    refine ⟨not_mem_slashJoin (by decide) ?_, by cases tail <;> decide⟩
    simp only [List.mem_map, forall_exists_index, and_imp, forall_apply_eq_imp_iff₂]
    exact fun s hs => not_mem_rxText rfl hr.braces.1 (hsg s hs)
  · simp only [List.mem_append, not_or]
    refine ⟨not_mem_slashJoin (by decide) ?_, by cases tail <;> decide⟩
    simp only [List.mem_map, forall_exists_index, and_imp, forall_apply_eq_imp_iff₂]
    exact fun s hs => not_mem_rxText rfl hr.braces.2 (hsg s hs)

/-- The text is not a lone star. -/
theorem rx_ne_star {rep : Str} {lz grp : Bool} (hr : IsRep rep lz grp) {segs : List Seg} (hne : segs ≠ [])
    (hsg : ∀ s ∈ segs, s.Plain) (tail : Bool) :
    (slashJoin (segs.map (·.rxText rep)) ++ if tail then c!"/.*" else []) ≠ c!"*" := by
  intro h
  have := reads_all hr hne hsg (reads_tail tail).2 (reads_tail tail).1 _ (le_refl _)
  rw [h] at this
  simp [rxParse, rxItem, rxClass, rxPlain] at this

/-- The regular expression of a template with parameters `:name`. -/
theorem colon_rx {rep : Str} {lz grp : Bool} (hr : IsRep rep lz grp) {segs : List Seg} (hne : segs ≠ [])
    (h : ∀ s ∈ segs, s.Colon) (tail : Bool) :
    escapeBraces (replaceColon rep false (prepareWildCard (template Seg.colonText segs tail))) =
      (slashJoin (segs.map (·.rxText rep)) ++ if tail then c!"/.*" else []) ∧
    colonNames none (prepareWildCard (template Seg.colonText segs tail)) = segs.flatMap (·.names) := by
  have hp : prepareWildCard (template Seg.colonText segs tail) =
      slashJoin (segs.map (·.colonText)) ++ if tail then c!"/.*" else [] := by
    refine prepare_join ?_ (by simpa using hne) tail
    simp only [List.mem_map, forall_exists_index, and_imp, forall_apply_eq_imp_iff₂]
    exact fun s hs => (h s hs).text
  have hj := replaceColon_join (rep := rep) h hne (s := if tail then c!"/.*" else [])
    (by cases tail <;> simp) (by cases tail <;> simp [replaceColon]) (by cases tail <;> simp [colonNames])
  rw [hp, hj.1, escape_rx hr fun s hs => (h s hs).plain]
  exact ⟨rfl, hj.2⟩

/-- The regular expression of a template with parameters `{name}`. -/
theorem brace_rx {rep : Str} {lz grp : Bool} (hr : IsRep rep lz grp) {segs : List Seg} (hne : segs ≠ [])
    (h : ∀ s ∈ segs, s.Braces) (tail : Bool) :
    escapeBraces (replacePlaces rep 0 (prepareWildCard (template Seg.braceText segs tail))) =
      (slashJoin (segs.map (·.rxText rep)) ++ if tail then c!"/.*" else []) ∧
    placeNames 0 (prepareWildCard (template Seg.braceText segs tail)) = segs.flatMap (·.names) ∧
    greedyTokens 0 (prepareWildCard (template Seg.braceText segs tail)) = segs.flatMap (·.names) := by
  have hp : prepareWildCard (template Seg.braceText segs tail) =
      slashJoin (segs.map (·.braceText)) ++ if tail then c!"/.*" else [] := by
    refine prepare_join ?_ (by simpa using hne) tail
    simp only [List.mem_map, forall_exists_index, and_imp, forall_apply_eq_imp_iff₂]
    exact fun s hs => (h s hs).text
  have hj := places_join (rep := rep) h hne (s := if tail then c!"/.*" else [])
    (by cases tail <;> simp) (by cases tail <;> simp [replacePlaces])
    (by cases tail <;> simp [placeNames]) (by cases tail <;> simp [greedyTokens])
  rw [hp, hj.1, escape_rx hr fun s hs => (h s hs).plain]
  exact ⟨rfl, hj.2⟩

theorem isSome_iff_instance {lz grp tail : Bool} {segs : List Seg} (hne : segs ≠ [])
    (hs : ∀ s ∈ segs, s.NoSlash) (p : Str) :
    (rxRun (allItems lz grp (tailItems tail) segs) p).isSome = true ↔ ∃ bs, Instance segs tail p bs := by
  rw [Option.isSome_iff_exists]
  constructor
  · rintro ⟨gs, h⟩
    obtain ⟨bs, h, _⟩ := (rxRun_template hne hs p gs).mp h
    exact ⟨bs, h⟩
  · rintro ⟨bs, h⟩
    exact ⟨_, (rxRun_template hne hs p _).mpr ⟨bs, h, rfl⟩⟩

theorem keyMatch2_template {segs : List Seg} (hne : segs ≠ []) (h : ∀ s ∈ segs, s.Colon) (tail : Bool)
    (rx : RxLib) (p : Str) :
    ∃ b, keyMatch2 rx p (template Seg.colonText segs tail) = .ok b ∧
      (b = true ↔ ∃ bs, Instance segs tail p bs) := by
  refine ⟨_, ?_, isSome_iff_instance (lz := false) (grp := false) hne (fun s hs => (h s hs).noSlash) p⟩
  unfold keyMatch2
  dsimp only
  rw [(colon_rx rep_plain hne h tail).1, if_neg (rx_ne_star rep_plain hne (fun s hs => (h s hs).plain) tail),
    rxMatch_template rep_plain hne fun s hs => (h s hs).plain]
  rfl

theorem keyMatch3_template {segs : List Seg} (hne : segs ≠ []) (h : ∀ s ∈ segs, s.Braces) (tail : Bool)
    (rx : RxLib) (p : Str) :
    ∃ b, keyMatch3 rx p (template Seg.braceText segs tail) = .ok b ∧
      (b = true ↔ ∃ bs, Instance segs tail p bs) := by
  refine ⟨_, ?_, isSome_iff_instance (lz := false) (grp := false) hne (fun s hs => (h s hs).noSlash) p⟩
  unfold keyMatch3
  dsimp only
  rw [(brace_rx rep_plain hne h tail).1, rxMatch_template rep_plain hne fun s hs => (h s hs).plain]
  rfl

/-- The value of the first parameter of the name. -/
def valueOf (bs : List (Str × Str)) (v : Str) : Str :=
  match bs.find? fun b => b.1 = v with
  | some b => b.2
  | none => []

theorem binds_names {segs : List Seg} {qs : List Str} {bs : List (Str × Str)} (h : Binds segs qs bs) :
    bs.map (·.1) = segs.flatMap (·.names) := by
  induction h with
  | nil => rfl
  | lit _ ih => simpa [Seg.names] using ih
  | par _ _ _ ih => simpa [Seg.names] using ih

theorem groupOf_binds (bs : List (Str × Str)) (v : Str) :
    groupOf (bs.map (·.1)) (some (bs.map (·.2))) v = valueOf bs v := by
  unfold groupOf valueOf
  induction bs with
  | nil => simp
  | cons b bs ih =>
    by_cases hb : b.1 = v
    · simp [List.findIdx?_cons, hb]
    · simp only [List.map_cons, List.findIdx?_cons, hb, decide_false, List.find?_cons]
      rw [← ih]
      cases h : List.findIdx? (fun x => decide (x = v)) (bs.map (·.1)) <;> simp 

theorem groupOf_none (keys : List Str) (v : Str) : groupOf keys none v = [] := by
  unfold groupOf
  cases keys.findIdx? (· = v) <;> rfl

theorem get_template {lz : Bool} {segs : List Seg} (hne : segs ≠ []) (hs : ∀ s ∈ segs, s.NoSlash)
    (tail : Bool) (p v : Str) :
    (∀ bs, Instance segs tail p bs →
      groupOf (segs.flatMap (·.names)) (rxRun (allItems lz true (tailItems tail) segs) p) v = valueOf bs v) ∧
    ((¬ ∃ bs, Instance segs tail p bs) →
      groupOf (segs.flatMap (·.names)) (rxRun (allItems lz true (tailItems tail) segs) p) v = []) := by
  constructor
  · intro bs hi
    rw [(rxRun_template hne hs p _).mpr ⟨bs, hi, rfl⟩]
    obtain ⟨qs, hb, _⟩ := hi
    rw [← binds_names hb, if_pos rfl, groupOf_binds]
  · intro hno
    have := (isSome_iff_instance (lz := lz) (grp := true) hne hs p).not.mpr hno
    rw [Option.not_isSome_iff_eq_none] at this
    rw [this, groupOf_none]

theorem keyGet2_template {segs : List Seg} (hne : segs ≠ []) (h : ∀ s ∈ segs, s.Colon) (tail : Bool)
    (rx : RxLib) (p v : Str) :
    (∀ bs, Instance segs tail p bs →
      keyGet2 rx p (template Seg.colonText segs tail) v = .ok (valueOf bs v)) ∧
    ((¬ ∃ bs, Instance segs tail p bs) → keyGet2 rx p (template Seg.colonText segs tail) v = .ok []) := by
  have hg := get_template (lz := false) hne (fun s hs => (h s hs).noSlash) tail p v
  have he : keyGet2 rx p (template Seg.colonText segs tail) v = .ok (groupOf (segs.flatMap (·.names))
      (rxRun (allItems false true (tailItems tail) segs) p) v) := by
    unfold keyGet2
    dsimp only
    rw [(colon_rx rep_group hne h tail).1, (colon_rx rep_group hne h tail).2,
      if_neg (rx_ne_star rep_group hne (fun s hs => (h s hs).plain) tail),
      rxMatch_template rep_group hne fun s hs => (h s hs).plain]
    rfl
  rw [he]
  exact ⟨fun bs hi => by rw [hg.1 bs hi], fun hno => by rw [hg.2 hno]⟩

theorem keyGet3_template {segs : List Seg} (hne : segs ≠ []) (h : ∀ s ∈ segs, s.Braces) (tail : Bool)
    (rx : RxLib) (p v : Str) :
    (∀ bs, Instance segs tail p bs →
      keyGet3 rx p (template Seg.braceText segs tail) v = .ok (valueOf bs v)) ∧
    ((¬ ∃ bs, Instance segs tail p bs) → keyGet3 rx p (template Seg.braceText segs tail) v = .ok []) := by
  have hg := get_template (lz := true) hne (fun s hs => (h s hs).noSlash) tail p v
  have he : keyGet3 rx p (template Seg.braceText segs tail) v = .ok (groupOf (segs.flatMap (·.names))
      (rxRun (allItems true true (tailItems tail) segs) p) v) := by
    unfold keyGet3
    dsimp only
    rw [(brace_rx rep_lazy hne h tail).1, (brace_rx rep_lazy hne h tail).2.1,
      if_neg (rx_ne_star rep_lazy hne (fun s hs => (h s hs).plain) tail),
      rxMatch_template rep_lazy hne fun s hs => (h s hs).plain]
    rfl
  rw [he]
  exact ⟨fun bs hi => by rw [hg.1 bs hi], fun hno => by rw [hg.2 hno]⟩

/-- The values of the same name are the same. -/
def Agree (bs : List (Str × Str)) : Prop := ∀ n v w, (n, v) ∈ bs → (n, w) ∈ bs → v = w

theorem sameValues_iff (seen rest : List (Str × Str)) (hs : Agree seen) :
    sameValues seen rest = true ↔ Agree (seen ++ rest) := by
  induction rest generalizing seen with
  | nil => simpa [sameValues] using hs
  | cons b rest ih =>
    obtain ⟨t, v⟩ := b
    simp only [sameValues]
    cases hf : seen.find? (fun x => decide (x.1 = t)) with
    | none =>
      have hno := List.find?_eq_none.mp hf
      have hno' : ∀ w, (t, w) ∉ seen := fun w hw => by have := hno _ hw; simp at this
      have ha : Agree ((t, v) :: seen) := by
        intro n x y hx hy
        simp only [List.mem_cons, Prod.mk.injEq] at hx hy
        rcases hx with ⟨rfl, rfl⟩ | hx <;> rcases hy with ⟨hy1, rfl⟩ | hy
        · rfl
        · exact absurd hy (hno' _)
        · subst hy1; exact absurd hx (hno' _)
        · exact hs n x y hx hy
      simp only
      rw [ih _ ha]
      have hperm : ∀ b, b ∈ (t, v) :: seen ++ rest ↔ b ∈ seen ++ (t, v) :: rest := by
        intro b; simp only [List.cons_append, List.mem_cons, List.mem_append]; tauto
      simp only [Agree, hperm]
    | some b =>
      obtain ⟨t', w⟩ := b
      have h1 := List.find?_some hf
      have h2 := List.mem_of_find?_eq_some hf
      simp only [decide_eq_true_eq] at h1
      subst h1
      simp only
      split
      · rename_i hwv
        subst hwv
        rw [ih _ hs]
        have hperm : ∀ b, b ∈ seen ++ rest ↔ b ∈ seen ++ (t', w) :: rest := by
          intro b
          simp only [List.mem_append, List.mem_cons]
          constructor
          · tauto
          · rintro (h | rfl | h)
            · exact .inl h
            · exact .inl h2
            · exact .inr h
        simp only [Agree, hperm]
      · rename_i hwv
        simp only [Bool.false_eq_true, false_iff]
        intro ha
        exact hwv (ha t' w v (by simp [h2]) (by simp))

theorem zip_binds (bs : List (Str × Str)) : (bs.map (·.1)).zip (bs.map (·.2)) = bs := by
  induction bs with
  | nil => rfl
  | cons b bs ih => simp [ih]

theorem keyMatch4_template {segs : List Seg} (hne : segs ≠ []) (h : ∀ s ∈ segs, s.Braces) (tail : Bool)
    (rx : RxLib) (p : Str) :
    ∃ b, keyMatch4 rx p (template Seg.braceText segs tail) = .ok b ∧
      (b = true ↔ ∃ bs, Instance segs tail p bs ∧ Agree bs) := by
  have hns := fun s hs => (h s hs).noSlash
  unfold keyMatch4
  dsimp only
  rw [(brace_rx rep_group hne h tail).1, (brace_rx rep_group hne h tail).2.2,
    rxMatch_template rep_group hne fun s hs => (h s hs).plain]
  simp only [Outcome.ok_bind]
  cases hr : rxRun (allItems false true (tailItems tail) segs) p with
  | none =>
    refine ⟨false, rfl, ?_⟩
    have := (isSome_iff_instance (lz := false) (grp := true) hne hns p (tail := tail)).not.mp
      (by rw [hr]; simp)
    simp only [Bool.false_eq_true, false_iff]
    rintro ⟨bs, hi, _⟩
    exact this ⟨bs, hi⟩
  | some gs =>
    obtain ⟨bs, hi, hgs⟩ := (rxRun_template hne hns p gs).mp hr
    rw [if_pos rfl] at hgs
    subst hgs
    obtain ⟨qs, hb, hpq⟩ := hi
    simp only
    rw [← binds_names hb, if_neg (by simp), zip_binds]
    refine ⟨_, rfl, ?_⟩
    rw [sameValues_iff [] bs (by intro n v w h; simp at h), List.nil_append]
    constructor
    · exact fun ha => ⟨bs, ⟨qs, hb, hpq⟩, ha⟩
    · rintro ⟨bs', hi', ha⟩
      have := (rxRun_template (lz := false) (grp := true) hne hns p _).mpr ⟨bs', hi', rfl⟩
      rw [hr] at this
      simp only [if_true, Option.some.injEq] at this
      obtain ⟨qs', hb', _⟩ := hi'
      have hf : bs.map (·.1) = bs'.map (·.1) := by rw [binds_names hb, binds_names hb']
      have : bs = bs' := by rw [← zip_binds bs, ← zip_binds bs', hf, this]
      rw [this]
      exact ha

end Casbin
