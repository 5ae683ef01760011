import Verif.Conditions
import Verif.StdLib
import Verif.ExprtkLex
import Verif.MiniLib

/-!
# Reading and evaluating conditions
-/

namespace Casbin
namespace Exprtk

/-- A written expression is read as its tree, as a statement. -/
theorem read_statement {e : Ast} {t : Ty} (hw : e.WF) (ht : Typed e t) (hd : e.depth 0 ≤ 400)
    (hl : (e.words 0).length ≤ 10000) {l : List (Str × Word)} {z : Str}
    (h : LaysOut (e.words 0) l z) : read (layout l z) = .ok (numeric e.tree) := by
  have hs := shape e 0
  have hwf := words_wf e 0 hw
  unfold read
  rw [lex_layout h hs.chain hwf]
  simp only [Read.bind]
  have hne : (e.words 0).map Word.tok ≠ [] := by simpa using hs.ne_nil
  rw [if_neg hne, assemble_words hs.chain hwf hl]
  simp only
  obtain ⟨n, hn⟩ : ∃ n, ((e.words 0).map Word.tok).length = n + 1 :=
    ⟨((e.words 0).map Word.tok).length - 1, by
      have := List.length_pos_iff.mpr hne
      omega⟩
  rw [hn]
  simp only [corpus]
  rw [parse_words hw hd]
  simp only [Read.bind]
  rw [typeOf_tree ht]
  rfl

/-- A tree with the type of a number is its own statement. -/
theorem numeric_num {e : Expr} (h : typeOf e = .ok .num) : numeric e = e := by
  cases e with
  | call f args =>
    simp only [typeOf] at h
    cases ht : typesOf args with
    | ok ts =>
      rw [ht] at h
      simp only [Read.bind] at h
      split at h
      · cases h
      · split at h
        · cases h
        · rename_i hf
          exact if_neg hf
    | reject => rw [ht] at h; cases h
    | outside => rw [ht] at h; cases h
  | _ => rfl

/-- A written expression is read as its tree. -/
theorem read_written {e : Ast} {t : Ty} (hw : e.WF) (ht : Typed e t)
    (hn : ∀ f args, e.tree = .call f args → t = .num) (hd : e.depth 0 ≤ 400)
    (hl : (e.words 0).length ≤ 10000) {l : List (Str × Word)} {z : Str}
    (h : LaysOut (e.words 0) l z) : read (layout l z) = .ok e.tree := by
  rw [read_statement hw ht hd hl h]
  have hty := typeOf_tree ht
  generalize e.tree = x at hn hty
  cases x with
  | call f args => rw [numeric_num (hn f args rfl ▸ hty)]
  | _ => rfl

end Exprtk

open Exprtk

theorem operand_wf {a : Operand} (h : a.WF) : a.ast.WF := by
  cases a <;> simpa [Operand.ast, Ast.WF, Operand.WF] using h

theorem operand_typed (a : Operand) : Typed a.ast .str := by
  cases a
  · exact .var _
  · exact .str _

theorem operands_wf {more : List Operand} (h : ∀ x ∈ more, x.WF) : allWF (more.map Operand.ast) := by
  induction more with
  | nil => simp [allWF]
  | cons a more ih =>
    simp only [List.map_cons, allWF]
    exact ⟨operand_wf (h a (by simp)), ih (fun x hx => h x (by simp [hx]))⟩

theorem operands_typed (more : List Operand) : TypedAll (more.map Operand.ast) := by
  induction more with
  | nil => exact .nil
  | cons a more ih => exact .cons (operand_typed a) ih

theorem cond_wf {c : Cond} (h : c.WF) : c.ast.WF := by
  induction c with
  | eq a b => simpa [Cond.ast, Ast.WF] using ⟨operand_wf h.1, operand_wf h.2⟩
  | ne a b => simpa [Cond.ast, Ast.WF] using ⟨operand_wf h.1, operand_wf h.2⟩
  | test f a more =>
    simpa [Cond.ast, Ast.WF] using ⟨h.1, operand_wf h.2.2.1, operands_wf h.2.2.2⟩
  | and a b iha ihb => simpa [Cond.ast, Ast.WF] using ⟨iha h.1, ihb h.2⟩
  | or a b iha ihb => simpa [Cond.ast, Ast.WF] using ⟨iha h.1, ihb h.2⟩
  | group a ih => simpa [Cond.ast, Ast.WF] using ih h

theorem cond_typed {c : Cond} (h : c.WF) : Typed c.ast .num := by
  induction c with
  | eq a b => exact .cmp (by decide) (operand_typed a) (operand_typed b)
  | ne a b => exact .cmp (by decide) (operand_typed a) (operand_typed b)
  | test f a more =>
    have := Typed.call (f := f) (operand_typed a) (operands_typed more)
    rwa [if_neg h.2.1] at this
  | and a b iha ihb => exact .num2 (by decide) (iha h.1) (ihb h.2)
  | or a b iha ihb => exact .num2 (by decide) (iha h.1) (ihb h.2)
  | group a ih => exact .group (ih h)

theorem Cond.WrittenAs.read {c : Cond} {text : Str} (h : c.WrittenAs text) :
    Exprtk.read text = .ok c.ast.tree := by
  obtain ⟨l, z, hl, rfl⟩ := h.laidOut
  exact read_written (cond_wf h.wf) (cond_typed h.wf) (fun _ _ _ => rfl) h.depth h.size hl

/-- The names of the matcher mean the given fields and functions. -/
structure Interprets (lib : ExprLib) (heap : List RM) (N : Naming) (c : Cond) (field : Str → Str)
    (fn : Str → List Str → Outcome Bool) : Prop where
  fields : ∀ x ∈ c.fields, N.var (lower x) = some (field x)
  calls : ∀ f n, (f, n) ∈ c.calls → ∃ fr, N.fn (lower f) = some fr ∧ fr.arity = n ∧
    ∀ args : List Str, args.length = n →
      (fr.meaning lib heap (args.map Val.str)).map Val.truthy = fn f args

section
variable {lib : ExprLib} {heap : List RM} {N : Naming} {field : Str → Str}
  {fn : Str → List Str → Outcome Bool}

theorem operand_knows {a : Operand} (h : ∀ x ∈ a.fields, N.var (lower x) = some (field x)) :
    N.Knows a.ast.tree := by
  cases a with
  | field x => exact ⟨_, h x (by simp [Operand.fields])⟩
  | lit s => trivial

theorem operand_denote {a : Operand} (h : ∀ x ∈ a.fields, N.var (lower x) = some (field x)) :
    denote lib heap N a.ast.tree = .ok (.str (a.val field)) := by
  cases a with
  | field x => simp [Operand.ast, Ast.tree, denote, h x (by simp [Operand.fields]), Operand.val]
  | lit s => simp [Operand.ast, Ast.tree, denote, Operand.val]

theorem operands_knows {more : List Operand}
    (h : ∀ x ∈ more.flatMap Operand.fields, N.var (lower x) = some (field x)) :
    N.KnowsAll (trees (more.map Operand.ast)) := by
  induction more with
  | nil => simp [trees, Naming.KnowsAll]
  | cons a more ih =>
    simp only [List.flatMap_cons, List.mem_append] at h
    simp only [List.map_cons, trees, Naming.KnowsAll]
    exact ⟨operand_knows (fun x hx => h x (.inl hx)), ih (fun x hx => h x (.inr hx))⟩

theorem operands_denote {more : List Operand}
    (h : ∀ x ∈ more.flatMap Operand.fields, N.var (lower x) = some (field x)) :
    denoteAll lib heap N (trees (more.map Operand.ast)) =
      .ok ((more.map (Operand.val field)).map Val.str) := by
  induction more with
  | nil => simp [trees, denoteAll]
  | cons a more ih =>
    simp only [List.flatMap_cons, List.mem_append] at h
    simp only [List.map_cons, trees, denoteAll]
    rw [operand_denote (fun x hx => h x (.inl hx)), ih (fun x hx => h x (.inr hx))]
    simp

theorem trees_length (es : List Ast) : (trees es).length = es.length := by
  induction es with
  | nil => simp [trees]
  | cons e es ih => simp [trees, ih]

theorem cond_knows {c : Cond} (h : Interprets lib heap N c field fn) : N.Knows c.ast.tree := by
  induction c with
  | eq a b =>
    have hf := h.fields
    simp only [Cond.fields, List.mem_append] at hf
    simp only [Cond.ast, Ast.tree, Naming.Knows, Naming.KnowsAll, and_true]
    exact ⟨operand_knows (fun x hx => hf x (.inl hx)), operand_knows (fun x hx => hf x (.inr hx))⟩
  | ne a b =>
    have hf := h.fields
    simp only [Cond.fields, List.mem_append] at hf
    simp only [Cond.ast, Ast.tree, Naming.Knows, Naming.KnowsAll, and_true]
    exact ⟨operand_knows (fun x hx => hf x (.inl hx)), operand_knows (fun x hx => hf x (.inr hx))⟩
  | test f a more =>
    have hf := h.fields
    simp only [Cond.fields, List.mem_append] at hf
    obtain ⟨fr, h1, h2, _⟩ := h.calls f (more.length + 1) (by simp [Cond.calls])
    simp only [Cond.ast, Ast.tree, Naming.Knows, Naming.KnowsAll]
    exact ⟨⟨fr, h1, by simp [trees_length, h2]⟩, operand_knows (fun x hx => hf x (.inl hx)),
      operands_knows (fun x hx => hf x (.inr hx))⟩
  | and a b iha ihb =>
    have hf := h.fields
    have hc := h.calls
    simp only [Cond.fields, Cond.calls, List.mem_append] at hf hc
    simp only [Cond.ast, Ast.tree, Naming.Knows, Naming.KnowsAll, and_true]
    exact ⟨iha ⟨fun x hx => hf x (.inl hx), fun f n hx => hc f n (.inl hx)⟩,
      ihb ⟨fun x hx => hf x (.inr hx), fun f n hx => hc f n (.inr hx)⟩⟩
  | or a b iha ihb =>
    have hf := h.fields
    have hc := h.calls
    simp only [Cond.fields, Cond.calls, List.mem_append] at hf hc
    simp only [Cond.ast, Ast.tree, Naming.Knows, Naming.KnowsAll, and_true]
    exact ⟨iha ⟨fun x hx => hf x (.inl hx), fun f n hx => hc f n (.inl hx)⟩,
      ihb ⟨fun x hx => hf x (.inr hx), fun f n hx => hc f n (.inr hx)⟩⟩
  | group a ih =>
    simp only [Cond.ast, Ast.tree]
    exact ih ⟨h.fields, h.calls⟩

theorem cond_denote (hL : Faithful lib) {c : Cond} (h : Interprets lib heap N c field fn) :
    (denote lib heap N c.ast.tree).map Val.truthy = c.meaning field fn := by
  induction c with
  | eq a b =>
    have hf := h.fields
    simp only [Cond.fields, List.mem_append] at hf
    simp only [Cond.ast, Ast.tree, denote, denoteAll]
    rw [operand_denote (fun x hx => hf x (.inl hx)), operand_denote (fun x hx => hf x (.inr hx))]
    simp [BinOp.name, hL.eq, Cond.meaning]
  | ne a b =>
    have hf := h.fields
    simp only [Cond.fields, List.mem_append] at hf
    simp only [Cond.ast, Ast.tree, denote, denoteAll]
    rw [operand_denote (fun x hx => hf x (.inl hx)), operand_denote (fun x hx => hf x (.inr hx))]
    simp [BinOp.name, hL.ne, Cond.meaning]
  | test f a more =>
    have hf := h.fields
    simp only [Cond.fields, List.mem_append] at hf
    obtain ⟨fr, h1, h2, h3⟩ := h.calls f (more.length + 1) (by simp [Cond.calls])
    simp only [Cond.ast, Ast.tree, denote, denoteAll]
    rw [operand_denote (fun x hx => hf x (.inl hx)), operands_denote (fun x hx => hf x (.inr hx))]
    simp only [Outcome.map_ok, h1, Cond.meaning]
    exact h3 (a.val field :: more.map (Operand.val field)) (by simp)
  | and a b iha ihb =>
    have hf := h.fields
    have hc := h.calls
    simp only [Cond.fields, Cond.calls, List.mem_append] at hf hc
    have ha := iha ⟨fun x hx => hf x (.inl hx), fun f n hx => hc f n (.inl hx)⟩
    have hb := ihb ⟨fun x hx => hf x (.inr hx), fun f n hx => hc f n (.inr hx)⟩
    simp only [Cond.ast, Ast.tree, denote, denoteAll, Cond.meaning]
    rw [← ha, ← hb]
    cases denote lib heap N a.ast.tree <;> cases denote lib heap N b.ast.tree <;>
      simp [BinOp.name, hL.and]
  | or a b iha ihb =>
    have hf := h.fields
    have hc := h.calls
    simp only [Cond.fields, Cond.calls, List.mem_append] at hf hc
    have ha := iha ⟨fun x hx => hf x (.inl hx), fun f n hx => hc f n (.inl hx)⟩
    have hb := ihb ⟨fun x hx => hf x (.inr hx), fun f n hx => hc f n (.inr hx)⟩
    simp only [Cond.ast, Ast.tree, denote, denoteAll, Cond.meaning]
    rw [← ha, ← hb]
    cases denote lib heap N a.ast.tree <;> cases denote lib heap N b.ast.tree <;>
      simp [BinOp.name, hL.or]
  | group a ih =>
    simp only [Cond.ast, Ast.tree, Cond.meaning]
    exact ih ⟨h.fields, h.calls⟩

/-- A written condition holds exactly when it says so. -/
theorem holds_written (hL : Faithful lib) {c : Cond} {text : Str} (ht : c.WrittenAs text)
    (h : Interprets lib heap N c field fn) :
    holds lib heap N text = c.meaning field fn := by
  rw [Fixtures.holds_of_knows (hL.reads _ _ ht.read) (cond_knows h), cond_denote hL h]

end
end Casbin
