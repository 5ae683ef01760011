import Verif.KeyDotLemmas

/-!
# C152: path templates with dots, repeated characters and wildcards anywhere
-/

namespace Casbin
namespace KeyPatternProps

/-- C152: for a template of characters that stand for themselves, dots, characters with `+`, wildcards `/*`
and parameters `:name`, KeyMatch2 returns, without throwing, whether the path is made of what the pieces
stand for: a dot stands for any character of a line, a slash too. -/
theorem C152_keyMatch2 {ps : List Piece} (h : ColonPieces ps) (rx : RxLib) (path : Str) :
    ∃ b, keyMatch2 rx path (piecesText colonPar ps) = .ok b ∧ (b = true ↔ Covers ps path) := by
  obtain ⟨hf, hs⟩ := fair_colon ps h
  refine ⟨(rxRun (ps.flatMap (Piece.items false false)) path).isSome, ?_, ?_⟩
  · unfold keyMatch2
    rw [prepare_pieces (by simp [colonPar]) (by simp [colonPar]) ps hf hs, colon_pieces _ ps h]
    have hb := rx_braces (rep := c!"[^/]+") (by decide) ps hf
    rw [escapeBraces_none hb.1 hb.2]
    simp only
    rw [if_neg (rx_star rep_plain ps hf), rxMatch_pieces rep_plain hf]
    rfl
  · rw [rxRun_taken, taken_pieces]

/-- C152: likewise KeyMatch3 with parameters `{name}`, which may stand anywhere. -/
theorem C152_keyMatch3 {ps : List Piece} (h : BracePieces ps) (rx : RxLib) (path : Str) :
    ∃ b, keyMatch3 rx path (piecesText bracePar ps) = .ok b ∧ (b = true ↔ Covers ps path) := by
  obtain ⟨hf, hs⟩ := fair_brace ps h
  refine ⟨(rxRun (ps.flatMap (Piece.items false false)) path).isSome, ?_, ?_⟩
  · unfold keyMatch3
    rw [prepare_pieces (by simp [bracePar]) (by simp [bracePar]) ps hf hs, brace_pieces _ ps h]
    have hb := rx_braces (rep := c!"[^/]+") (by decide) ps hf
    rw [escapeBraces_none hb.1 hb.2]
    simp only
    rw [rxMatch_pieces rep_plain hf]
    rfl
  · rw [rxRun_taken, taken_pieces]

/-- A text of characters that stand for themselves, and dots. -/
def Dotted (t : Str) : Prop := ∀ c ∈ t, c = '.' ∨ (Itself c ∧ c ≠ ':')

/-- The pieces of such a text. -/
def piecesOf (t : Str) : List Piece := t.map fun c => if c = '.' then .dot else .char c

theorem piecesOf_text (par : Str → Str) (t : Str) : piecesText par (piecesOf t) = t := by
  induction t with
  | nil => rfl
  | cons c t ih =>
    simp only [piecesText, piecesOf] at ih
    simp only [piecesText, piecesOf, List.map_cons, List.flatMap_cons, ih]
    split
    · subst c; rfl
    · rfl

theorem piecesOf_colon {t : Str} (h : Dotted t) : ColonPieces (piecesOf t) := by
  induction t with
  | nil => trivial
  | cons c t ih =>
    have ih := ih (fun d hd => h d (by simp [hd]))
    rcases h c (by simp) with rfl | ⟨h1, h2⟩
    · simpa [piecesOf, ColonPieces] using ih
    · simp only [piecesOf, List.map_cons]
      split
      · exact ih
      · exact ⟨h1, h2, ih⟩

theorem piecesOf_brace {t : Str} (h : Dotted t) : BracePieces (piecesOf t) := by
  induction t with
  | nil => trivial
  | cons c t ih =>
    have ih := ih (fun d hd => h d (by simp [hd]))
    rcases h c (by simp) with rfl | ⟨h1, h2⟩
    · simpa [piecesOf, BracePieces] using ih
    · simp only [piecesOf, List.map_cons]
      split
      · exact ih
      · exact ⟨h1, ih⟩

/-- The path agrees with the text in every place, except that where the text has a dot the path may have any
character of a line. -/
def UpToDots (t path : Str) : Prop :=
  List.Forall₂ (fun c d => c = d ∧ c ≠ '.' ∨ c = '.' ∧ d ≠ '\n' ∧ d ≠ '\r') t path

theorem covers_upToDots (t : Str) : ∀ path, Covers (piecesOf t) path ↔ UpToDots t path := by
  induction t with
  | nil => intro path; simp [piecesOf, Covers, UpToDots]
  | cons c t ih =>
    intro path
    simp only [UpToDots] at ih
    simp only [piecesOf, List.map_cons, Covers, UpToDots, List.forall₂_cons_left_iff]
    simp only [piecesOf] at ih
    constructor
    · rintro ⟨s, rest, rfl, h1, h2⟩
      split at h1
      · obtain ⟨d, rfl, h3⟩ := h1
        exact ⟨d, rest, .inr ⟨‹_›, h3⟩, (ih _).mp h2, rfl⟩
      · obtain rfl : s = [c] := h1
        exact ⟨c, rest, .inl ⟨rfl, ‹_›⟩, (ih _).mp h2, rfl⟩
    · rintro ⟨d, rest, h1, h2, rfl⟩
      refine ⟨[d], rest, rfl, ?_, (ih _).mpr h2⟩
      rcases h1 with ⟨rfl, h1⟩ | ⟨rfl, h1⟩
      · rw [if_neg h1]; rfl
      · rw [if_pos rfl]; exact ⟨d, rfl, h1⟩

/-- C152: a template without parameters and wildcards is matched exactly by the paths that agree with it up to
the dots, by KeyMatch2 and by KeyMatch3. -/
theorem C152_dots {t : Str} (h : Dotted t) (rx : RxLib) (path : Str) :
    (∃ b, keyMatch2 rx path t = .ok b ∧ (b = true ↔ UpToDots t path)) ∧
      ∃ b, keyMatch3 rx path t = .ok b ∧ (b = true ↔ UpToDots t path) := by
  have h2 := C152_keyMatch2 (piecesOf_colon h) rx path
  have h3 := C152_keyMatch3 (piecesOf_brace h) rx path
  rw [piecesOf_text, covers_upToDots] at h2 h3
  exact ⟨h2, h3⟩

theorem upToDots_self (t : Str) : UpToDots t t := by
  refine List.forall₂_same.mpr fun c _ => ?_
  by_cases hd : c = '.'
  · subst hd; exact .inr ⟨rfl, by decide, by decide⟩
  · exact .inl ⟨rfl, hd⟩

theorem eq_of_upToDots {t : Str} (h : '.' ∉ t) : ∀ path, UpToDots t path → t = path := by
  induction t with
  | nil => intro path hp; cases hp; rfl
  | cons c t ih =>
    intro path hp
    simp only [List.mem_cons, not_or] at h
    cases hp with
    | cons h1 h2 =>
      rcases h1 with ⟨rfl, -⟩ | ⟨rfl, -⟩
      · rw [ih h.2 _ h2]
      · exact absurd rfl h.1

/-- C152: so it is matched by itself, and it is the only path it is matched by exactly when it has no dot; a
template with a dot also matches the path with a slash there. -/
theorem C152_other {t : Str} (h : Dotted t) (rx : RxLib) :
    keyMatch2 rx t t = .ok true ∧ keyMatch3 rx t t = .ok true ∧
    ((∀ path, keyMatch2 rx path t = .ok true → path = t) ↔ '.' ∉ t) ∧
    ((∀ path, keyMatch3 rx path t = .ok true → path = t) ↔ '.' ∉ t) ∧
    ∀ a b, t = a ++ '.' :: b →
      keyMatch2 rx (a ++ '/' :: b) t = .ok true ∧ keyMatch3 rx (a ++ '/' :: b) t = .ok true := by
  have k2 : ∀ path, keyMatch2 rx path t = .ok true ↔ UpToDots t path := by
    intro path
    obtain ⟨⟨b, h1, h2⟩, -⟩ := C152_dots h rx path
    rw [h1, ← h2]; simp
  have k3 : ∀ path, keyMatch3 rx path t = .ok true ↔ UpToDots t path := by
    intro path
    obtain ⟨-, b, h1, h2⟩ := C152_dots h rx path
    rw [h1, ← h2]; simp
  have slash : ∀ a b, t = a ++ '.' :: b → UpToDots t (a ++ '/' :: b) := by
    rintro a b rfl
    refine List.rel_append (upToDots_self a) (.cons ?_ ?_)
    · exact .inr ⟨rfl, by decide, by decide⟩
    · exact upToDots_self b
  have only : (∀ path, UpToDots t path → path = t) ↔ '.' ∉ t := by
    constructor
    · intro hall hd
      obtain ⟨a, b, rfl⟩ := List.append_of_mem hd
      have := hall _ (slash a b rfl)
      simp at this
    · intro hd path hp
      exact (eq_of_upToDots hd path hp).symm
  refine ⟨(k2 t).mpr (upToDots_self t), (k3 t).mpr (upToDots_self t), ?_, ?_,
    fun a b e => ⟨(k2 _).mpr (slash a b e), (k3 _).mpr (slash a b e)⟩⟩
  · simp only [k2]; exact only
  · simp only [k3]; exact only

/-- A template with everything: `/v1.0/:user/lg+/*`. -/
def tplColon : List Piece :=
  [.char '/', .char 'v', .char '1', .dot, .char '0', .char '/', .par c!"user", .char '/', .char 'l',
    .many 'g', .wild]

example : piecesText colonPar tplColon = c!"/v1.0/:user/lg+/*" ∧ ColonPieces tplColon := by
  refine ⟨rfl, ?_⟩
  simp [tplColon, ColonPieces, Itself, Ordinary, piecesText, Piece.text]

/-- The dot stands for the slash here. -/
example : Covers tplColon c!"/v1/0/alice/lggg/2024/a.txt" := by
  refine ⟨c!"/", _, rfl, rfl, c!"v", _, rfl, rfl, c!"1", _, rfl, rfl, c!"/", _, rfl,
    ⟨'/', rfl, by decide, by decide⟩, c!"0", _, rfl, rfl, c!"/", _, rfl, rfl, c!"alice", _, rfl,
    ⟨by decide, by decide⟩, c!"/", _, rfl, rfl, c!"l", _, rfl, rfl, c!"ggg", _, rfl,
    ⟨by decide, by decide⟩, c!"/2024/a.txt", _, rfl, ⟨c!"2024/a.txt", rfl, by decide, by decide⟩, rfl⟩

example : keyMatch2 (fun _ _ => .throw .text) c!"/v1/0/alice/lggg/2024/a.txt" c!"/v1.0/:user/lg+/*" = .ok true ∧
    keyMatch2 (fun _ _ => .throw .text) c!"/v1.0/alice/l/2024" c!"/v1.0/:user/lg+/*" = .ok false := by
  decide +kernel

/-- Parameters in braces may stand side by side: `/{a}{b}./*`. -/
example : BracePieces [.char '/', .par c!"a", .par c!"b", .dot, .wild] := by
  simp [BracePieces, Itself]

example : keyMatch3 (fun _ _ => .throw .text) c!"/xy./q" c!"/{a}{b}./*" = .ok true ∧
    keyMatch3 (fun _ _ => .throw .text) c!"/x/q" c!"/{a}{b}./*" = .ok false := by
  decide +kernel

example : Dotted c!"/files/report.pdf" := by
  simp [Dotted, Itself, Ordinary]

end KeyPatternProps
end Casbin
