import Verif.Props.AnyLength
import Verif.Props.IPTexts

/-!
# C108, C109: policies with any rules; C123: all answers of `IPMatch`

Rules that the matcher refuses throw when they are reached.
-/

namespace Casbin
namespace TextProps

open Exprtk Enforcer EndToEnd DecisionProps Fixtures ModelProps MatcherProps
open BuiltinProps DottedProps IPTextProps

variable [IterOrder] {lib : ExprLib} {E : Enforcer} {r p e : Assertion} {matcher exp : Str}
  {vals : List Str}

/-- The answer that rules give when they are read from the first to the last: the first that grants
ends the request, the first that fails makes it fail; in the end the request is denied. -/
def readSteps (step : Rule → Outcome Bool) : List Rule → Outcome Bool
  | [] => .ok false
  | rule :: rest =>
    match step rule with
    | .ok true => .ok true
    | .ok false => readSteps step rest
    | .throw x => .throw x
    | .ub u => .ub u

omit [IterOrder] in
theorem readSteps_append {step : Rule → Outcome Bool} {pre : List Rule}
    (h : ∀ y ∈ pre, step y = .ok false) (rest : List Rule) :
    readSteps step (pre ++ rest) = readSteps step rest := by
  induction pre with
  | nil => rfl
  | cons y pre ih =>
    simp only [List.cons_append, readSteps, h y (by simp)]
    exact ih fun z hz => h z (by simp [hz])

omit [IterOrder] in
theorem readSteps_all {step : Rule → Outcome Bool} {l : List Rule}
    (h : ∀ y ∈ l, step y = .ok false) : readSteps step l = .ok false := by
  have := readSteps_append h []
  simpa [readSteps] using this

/-- The answer under allow-override without an effect column, for any rules and any matcher. -/
theorem allow_answer_steps (hR : Request lib E r p e matcher exp vals)
    (heff : e.value = exprAllowOverride) (hft : c!"p_eft" ∉ p.tokens) (hev : hasEval exp = false)
    (hc : candidates p vals ≠ []) {step : Rule → Outcome Bool}
    (hlen : ∀ rule, rule.length ≠ p.tokens.length → step rule = .throw .enforcer)
    (hV : ∀ rule, rule.length = p.tokens.length →
      verdict lib E.model E.heap exp r.tokens p.tokens vals rule = step rule) :
    (E.enforceWithMatcher lib matcher (vals.map ReqVal.str)).1 =
      readSteps step (candidates p vals) := by
  have htext : ∀ rule : Rule, ruleText exp p.tokens rule ≠ .ok [] :=
    fun rule => by simp [ruleText, hev, hR.nonempty]
  have hE : ∀ {o : Outcome (Bool × Rule)},
      (E.enforceEx lib matcher (vals.map ReqVal.str) []).1 = o →
      (E.enforceWithMatcher lib matcher (vals.map ReqVal.str)).1 = o.map Prod.fst := by
    intro o ho
    unfold Enforcer.enforceWithMatcher
    rw [M.bind_run]
    rcases hx : E.enforceEx lib matcher (vals.map ReqVal.str) [] with ⟨o', E'⟩
    rw [hx] at ho
    subst ho
    cases o' <;> rfl
  have hsat : ∀ rule, rule.length = p.tokens.length →
      (Settles lib E exp e.value r p vals rule ↔ step rule = .ok true) := by
    intro rule hl
    have h1 : Satisfies lib E exp r p vals rule ↔ step rule = .ok true := by
      unfold Satisfies; rw [hV rule hl]
    constructor
    · intro h; exact h1.mp h.1
    · intro h; exact ⟨h1.mpr h, Or.inl ⟨heff, Or.inl hft⟩⟩
  have hpass : ∀ {l : List Rule}, (∀ y ∈ l, Passes lib E exp e.value r p vals y) →
      ∀ y ∈ l, step y = .ok false := by
    intro l h y hy
    have h1 := (h y hy).1
    have h2 := mt (hsat y h1.length).mpr (h y hy).2
    obtain ⟨b, hb⟩ := h1.value
    rw [hV y h1.length] at hb
    cases b with
    | false => exact hb
    | true => exact absurd hb h2
  rcases C125_in_order hR (Or.inl heff) (fun rule _ _ => htext rule) hc [] with
    ⟨pre, rule, post, b, hl, hpre, hevr, hset, ho, hb⟩ | ⟨pre, bad, post, o, hl, hpre, hf, ho⟩ |
    ⟨hall, b, x, ho, hb⟩
  · rw [hE ho, hl, readSteps_append (hpass hpre)]
    have hbt : b = true := hb.mpr (Or.inl hft)
    simp [readSteps, (hsat rule hevr.length).mp hset, hbt, Outcome.map]
  · rw [hE ho, hl, readSteps_append (hpass hpre)]
    cases hf with
    | length hn => simp [readSteps, hlen bad hn, Outcome.map]
    | throws x hn hv => rw [hV bad hn] at hv; simp [readSteps, hv, Outcome.map]
    | ub u hn hv => rw [hV bad hn] at hv; simp [readSteps, hv, Outcome.map]
  · rw [hE ho, readSteps_all (hpass hall)]
    have : b = false := by
      rw [Bool.eq_false_iff]
      intro h
      rw [hb, heff] at h
      revert h
      simp [exprAllowOverride]
    rw [this]; rfl

/-! ## C123 -/

/-- The address is found in the block, for all notations of both: IPv4 addresses in blocks of IPv4
addresses; IPv6 addresses in blocks outside `::ffff:0:0/96`; IPv4 addresses in the blocks within
`::ffff:0:0/96`, written with an IPv4 address or in groups. -/
inductive Found : Str → Str → Prop
  | v4 {ip net ms : Str} {a b c d e f g h n : Nat} : IsV4 ip a b c d → IsV4 net e f g h →
      IsDecimal ms n → n ≤ 32 → v4Value a b c d / 2 ^ (32 - n) = v4Value e f g h / 2 ^ (32 - n) →
      Found ip (net ++ '/' :: ms)
  | v6 {x y : Bool} {ip net ms : Str} {as es : List Nat} {n : Nat} : IsText x ip as → IsText y net es →
      IsDecimal ms n → n ≤ 128 → ¬ Mapped es n →
      v6Value as / 2 ^ (128 - n) = v6Value es / 2 ^ (128 - n) →
      (x ≠ y → (104 < n → n < 112 → v6Value es / 2 ^ 24 % 256 = 0) ∧
        (120 < n → n < 128 → v6Value es / 2 ^ 8 % 256 = 0)) →
      Found ip (net ++ '/' :: ms)
  | dotted {ip net ms : Str} {a b c d e f g h n : Nat} : IsV4 ip a b c d →
      IsDotted net [0, 0, 0, 0, 0, 0xffff] e f g h → IsDecimal ms n → 96 ≤ n → n ≤ 128 →
      v4Value a b c d / 2 ^ (128 - n) = v4Value e f g h / 2 ^ (128 - n) →
      Found ip (net ++ '/' :: ms)
  | groups {ip net ms : Str} {a b c d g k n : Nat} : IsV4 ip a b c d →
      IsV6 net [0, 0, 0, 0, 0, 0xffff, g, k] → IsDecimal ms n → 96 ≤ n → n ≤ 128 →
      v4Value a b c d / 2 ^ (128 - n) = (g * 2 ^ 16 + k) / 2 ^ (128 - n) →
      (104 < n → n < 112 → a = 0) → (120 < n → n < 128 → c = 0) →
      Found ip (net ++ '/' :: ms)

omit [IterOrder] in
/-- C123: `IPMatch` is true for exactly these texts. -/
theorem C123_found (s t : Str) : ipMatch s t = .ok true ↔ Found s t := by
  constructor
  · intro hok
    obtain ⟨hs, net, ms, n, rfl, hms, hb⟩ := (C123_answers s t).mp ⟨_, hok⟩
    rcases hb with ⟨⟨e, f, g, h, hnet⟩, hn⟩ | ⟨⟨y, es, hnet⟩, hn⟩
    · rcases hs with ⟨a, b, c, d, hip⟩ | ⟨x, as, hip⟩
      · rw [C62_ipMatch hip hnet hms hn, Outcome.ok.injEq, decide_eq_true_iff] at hok
        exact .v4 hip hnet hms hn hok
      · rw [ipMatch_text_v4 hip hnet hms hn] at hok
        simp at hok
    · by_cases hm : Mapped es n
      · rcases hs with ⟨a, b, c, d, hip⟩ | ⟨x, as, hip⟩
        · cases y with
          | true =>
            obtain ⟨hs, e, f, g, h, hd, rfl⟩ := hnet
            have h6 : hs = [0, 0, 0, 0, 0, 0xffff] := by
              have := hm.2
              rwa [List.take_append_of_le_length (by rw [isDotted_length hd]),
                List.take_of_length_le (by rw [isDotted_length hd])] at this
            subst h6
            rw [ipMatch_v4_mapped hip hd hms hm.1 hn, Outcome.ok.injEq, decide_eq_true_iff] at hok
            exact .dotted hip hd hms hm.1 hn hok
          | false =>
            obtain ⟨g, k, rfl⟩ := mapped_eq (isText_length hnet) hm
            rw [C74_exact hip hnet hms hm.1 hn, Outcome.ok.injEq, decide_eq_true_iff] at hok
            exact .groups hip hnet hms hm.1 hn hok.1 hok.2.1 hok.2.2
        · rw [ipMatch_text_mapped hip hnet hms hn hm] at hok
          simp at hok
      · rcases hs with ⟨a, b, c, d, hip⟩ | ⟨x, as, hip⟩
        · rw [ipMatch_v4_text hip hnet hms hn hm] at hok
          simp at hok
        · rw [C122_exact hip hnet hms hn hm] at hok
          exact .v6 hip hnet hms hn hm hok.1 hok.2
  · intro h
    cases h with
    | v4 h1 h2 h3 h4 h5 => rw [C62_ipMatch h1 h2 h3 h4, decide_eq_true h5]
    | v6 h1 h2 h3 h4 h5 h6 h7 => exact (C122_exact h1 h2 h3 h4 h5).mpr ⟨h6, h7⟩
    | dotted h1 h2 h3 h4 h5 h6 => rw [ipMatch_v4_mapped h1 h2 h3 h4 h5, decide_eq_true h6]
    | groups h1 h2 h3 h4 h5 h6 h7 h8 =>
      rw [C74_exact h1 h2 h3 h4 h5, decide_eq_true ⟨h6, h7, h8⟩]

omit [IterOrder] in
open Classical in
/-- C123: all outcomes of `IPMatch`, for all texts. -/
theorem C123_outcome (s t : Str) : ipMatch s t =
    if ¬ IsAddr s then .throw .illegalArgument else if ¬ Casbin.IsBlock t then .throw .ipParser
    else .ok (decide (Found s t)) := by
  by_cases hs : IsAddr s
  · by_cases ht : Casbin.IsBlock t
    · obtain ⟨b, hb⟩ := (C123_answers s t).mpr ⟨hs, ht⟩
      rw [if_neg (not_not.mpr hs), if_neg (not_not.mpr ht), hb]
      congr 1
      rw [Bool.eq_iff_iff, decide_eq_true_iff, ← C123_found, hb, Outcome.ok.injEq]
    · rw [if_neg (not_not.mpr hs), if_pos ht]
      exact (C123_throws s t).2.mpr ⟨hs, ht⟩
  · rw [if_pos hs]
    exact (C123_throws s t).1.mpr hs

/-! ## C108 -/

open Classical in
/-- What a rule does to a request from `ip` with ipmatch_model.conf. -/
noncomputable def ipStep (ip obj act : Str) : Rule → Outcome Bool
  | [s, o, t] =>
    if ¬ IsAddr ip then .throw .illegalArgument
    else if ¬ Casbin.IsBlock s then .throw .ipParser
    else .ok (decide (Found ip s ∧ obj = o ∧ act = t))
  | _ => .throw .enforcer

/-- C108 for any rules and any texts in the request: the rules are read in the order in which they
are stored; the first for the object and action with a block in which the address is found grants; a
rule of another length throws when it is reached, and so does, whatever its object and action, one
whose subject is no block. -/
theorem C108_any_rules {rx : RxLib} (hL : Faithful lib) (hb : StdFunctions lib rx)
    (hS : Setup lib E rA p e mIp) (hv : e.value = c!"some(where (p.eft == allow))")
    (ht : p.tokens = pTok) (hvec : p.policy.hash = false) (hne : p.policy.items ≠ [])
    (ip obj act : Str) :
    (E.enforce lib [.str ip, .str obj, .str act]).1 =
      readSteps (ipStep ip obj act) p.policy.items := by
  have hcand : candidates p [ip, obj, act] = p.policy.items := by simp [candidates, hvec]
  have hreq := hS.request (vals := [ip, obj, act]) rfl
  have key := allow_answer_steps hreq hv (by rw [ht]; decide) hS.noEval (by rw [hcand]; exact hne)
    (step := ipStep ip obj act) (by
      rw [ht]
      intro rule hr
      unfold ipStep
      split
      · simp [pTok] at hr
      · rfl) (by
      intro rule hr
      rw [ht] at hr ⊢
      obtain ⟨x, y, z, rfl⟩ := length3 hr
      have hbi : UMap.get lowBuiltins (lower c!"ipMatch") = some (.builtin .ipMatch) := by decide
      rw [verdict_written hL written_ip (by decide)]
      · generalize hN : naming E.model rA.tokens pTok [ip, obj, act] [x, y, z] = N
        have v1 : ModelProps.valueOf N c!"r.sub" = ip := by rw [← hN]; rfl
        have v2 : ModelProps.valueOf N c!"p.sub" = x := by rw [← hN]; rfl
        have v3 : ModelProps.valueOf N c!"r.obj" = obj := by rw [← hN]; rfl
        have v4 : ModelProps.valueOf N c!"p.obj" = y := by rw [← hN]; rfl
        have v5 : ModelProps.valueOf N c!"r.act" = act := by rw [← hN]; rfl
        have v6 : ModelProps.valueOf N c!"p.act" = z := by rw [← hN]; rfl
        have hc : callOf lib E.heap N c!"ipMatch" [ip, x] = ipMatch ip x := by
          rw [← hN, callOf_builtin hbi _ _ rfl, hb]
          simp only [stdBuiltin, boolVal]
          cases ipMatch ip x <;> simp [Outcome.map]
        simp only [ipCond, sameObj, sameAct, rSub, rObj, rAct, pSub, pObj, pAct, Cond.meaning,
          Operand.val, List.map_cons, List.map_nil, v1, v2, v3, v4, v5, v6, hc, ipStep,
          C123_outcome ip x]
        by_cases h1 : IsAddr ip
        · by_cases h2 : Casbin.IsBlock x
          · simp only [h1, h2, not_true_eq_false, if_false, Outcome.ok_bind, Outcome.pure_eq]
            congr 1
            rw [Bool.eq_iff_iff]
            simp [and_assoc]
          · simp [h1, h2]
        · simp [h1]
      · intro v hv
        have : v ∈ [c!"r.sub", c!"p.sub", c!"r.obj", c!"p.obj", c!"r.act", c!"p.act"] := by
          revert hv; revert v; decide
        simp only [List.mem_cons, List.not_mem_nil, or_false] at this
        rcases this with rfl | rfl | rfl | rfl | rfl | rfl <;> rfl
      · intro f n hf
        have : (f, n) = (c!"ipMatch", 2) := by
          simpa [ipCond, sameObj, sameAct, Cond.calls] using hf
        cases this
        simp [functions, hbi, FunRef.arity])
  refine key.trans ?_
  rw [hcand]

/-- C108 for any rules after any faithful history. -/
theorem C108_any_history {rx : RxLib} (hL : Faithful lib) (hb : StdFunctions lib rx)
    (P : List Rule) (acts : List Deed)
    (hf : FaithfulDeeds lib acts (buildRoleLinks (enforcer (plainModel mIp P))).2)
    (ip obj act : Str) :
    ∃ E, E = runDeeds lib acts (buildRoleLinks (enforcer (plainModel mIp P))).2 ∧
    ∃ p, E.model.find c!"p" c!"p" = some p ∧
      (p.policy.items ≠ [] → (E.enforce lib [.str ip, .str obj, .str act]).1 =
        readSteps (ipStep ip obj act) p.policy.items) := by
  obtain ⟨p1, t1, v1, l1, s1⟩ := linked_plain lib mIp P (by decide) (by decide)
  obtain ⟨p, hp, t2, hv, l2, _, _⟩ := linked_history l1 s1 acts hf
  exact ⟨_, rfl, p, hp, fun hne => C108_any_rules hL hb l2.setup rfl (t2.trans t1)
    (hv (by rw [v1]; rfl)) hne ip obj act⟩

/-! ## C109 -/

open Classical in
/-- What a rule does to a request with keymatch_model.conf. What a regular expression matches is
left to the library. -/
noncomputable def keyStep (rx : RxLib) (sub obj act : Str) : Rule → Outcome Bool
  | [s, o, t] =>
    match rx t act with
    | .ok found => .ok (decide (sub = s ∧ KeyCovers o obj ∧ found ≠ none))
    | .throw x => .throw x
    | .ub u => .ub u
  | _ => .throw .enforcer

open Classical in
/-- C109 for any rules: they are read in the order in which they are stored; the first of the subject
whose path pattern covers the object and whose regular expression matches the action grants; a rule of
another length throws when it is reached, and so does, whatever its subject and pattern, one whose
regular expression the library refuses. -/
theorem C109_any_rules {rx : RxLib} (hL : Faithful lib) (hb : StdFunctions lib rx)
    (hS : Setup lib E rA p e mKey) (hv : e.value = c!"some(where (p.eft == allow))")
    (ht : p.tokens = pTok) (hvec : p.policy.hash = false) (hne : p.policy.items ≠ [])
    (sub obj act : Str) :
    (E.enforce lib [.str sub, .str obj, .str act]).1 =
      readSteps (keyStep rx sub obj act) p.policy.items := by
  have hcand : candidates p [sub, obj, act] = p.policy.items := by simp [candidates, hvec]
  have hreq := hS.request (vals := [sub, obj, act]) rfl
  have key := allow_answer_steps hreq hv (by rw [ht]; decide) hS.noEval (by rw [hcand]; exact hne)
    (step := keyStep rx sub obj act) (by
      rw [ht]
      intro rule hr
      unfold keyStep
      split
      · simp [pTok] at hr
      · rfl) (by
      intro rule hr
      rw [ht] at hr ⊢
      obtain ⟨x, y, z, rfl⟩ := length3 hr
      have hbi : UMap.get lowBuiltins (lower c!"regexMatch") = some (.builtin .regexMatch) := by decide
      have hbk : UMap.get lowBuiltins (lower c!"keyMatch") = some (.builtin .keyMatch) := by decide
      rw [verdict_written hL written_key hS.noEval]
      · generalize hN : naming E.model rA.tokens pTok [sub, obj, act] [x, y, z] = N
        have v1 : ModelProps.valueOf N c!"r.sub" = sub := by rw [← hN]; rfl
        have v2 : ModelProps.valueOf N c!"p.sub" = x := by rw [← hN]; rfl
        have v3 : ModelProps.valueOf N c!"r.obj" = obj := by rw [← hN]; rfl
        have v4 : ModelProps.valueOf N c!"p.obj" = y := by rw [← hN]; rfl
        have v5 : ModelProps.valueOf N c!"r.act" = act := by rw [← hN]; rfl
        have v6 : ModelProps.valueOf N c!"p.act" = z := by rw [← hN]; rfl
        have hc : callOf lib E.heap N c!"keyMatch" [obj, y] = .ok (decide (KeyCovers y obj)) := by
          rw [← hN, callOf_builtin hbk _ _ rfl, hb]
          simp only [stdBuiltin, Outcome.map_ok, Val.truthy_ofBool]
          congr 1
          rw [Bool.eq_iff_iff, decide_eq_true_iff]
          exact BuiltinProps.C60_keyMatch obj y
        have hd : callOf lib E.heap N c!"regexMatch" [act, z] = regexMatch rx act z := by
          rw [← hN, callOf_builtin hbi _ _ rfl, hb]
          simp only [stdBuiltin, boolVal]
          cases regexMatch rx act z <;> simp [Outcome.map]
        simp only [keyCond, rSub, rObj, rAct, pSub, pObj, pAct, Cond.meaning,
          Operand.val, List.map_cons, List.map_nil, v1, v2, v3, v4, v5, v6, hc, hd, Outcome.ok_bind,
          Outcome.pure_eq, keyStep, regexMatch]
        cases rx z act with
        | ok found => cases found <;> simp [Bool.and_assoc, Bool.decide_and]
        | throw x => simp
        | ub u => simp
      · intro v hv
        have : v ∈ [c!"r.sub", c!"p.sub", c!"r.obj", c!"p.obj", c!"r.act", c!"p.act"] := by
          simpa [keyCond, Cond.fields, rSub, rObj, rAct, pSub, pObj, pAct, Operand.fields] using hv
        simp only [List.mem_cons, List.not_mem_nil, or_false] at this
        rcases this with rfl | rfl | rfl | rfl | rfl | rfl <;> rfl
      · intro g n hg
        have : (g, n) = (c!"keyMatch", 2) ∨ (g, n) = (c!"regexMatch", 2) := by
          simpa [keyCond, Cond.calls] using hg
        rcases this with h | h <;> cases h
        · simp [functions, hbk, FunRef.arity]
        · simp [functions, hbi, FunRef.arity])
  refine key.trans ?_
  rw [hcand]

/-- C109 for any rules after any faithful history. -/
theorem C109_any_history {rx : RxLib} (hL : Faithful lib) (hb : StdFunctions lib rx)
    (P : List Rule) (acts : List Deed)
    (hf : FaithfulDeeds lib acts (buildRoleLinks (enforcer (plainModel mKey P))).2)
    (sub obj act : Str) :
    ∃ E, E = runDeeds lib acts (buildRoleLinks (enforcer (plainModel mKey P))).2 ∧
    ∃ p, E.model.find c!"p" c!"p" = some p ∧
      (p.policy.items ≠ [] → (E.enforce lib [.str sub, .str obj, .str act]).1 =
        readSteps (keyStep rx sub obj act) p.policy.items) := by
  obtain ⟨p1, t1, v1, l1, s1⟩ := linked_plain lib mKey P (by decide) (by decide)
  obtain ⟨p, hp, t2, hv, l2, _, _⟩ := linked_history l1 s1 acts hf
  exact ⟨_, rfl, p, hp, fun hne => C109_any_rules hL hb l2.setup rfl (t2.trans t1)
    (hv (by rw [v1]; rfl)) hne sub obj act⟩

/-- Non-vacuity: a rule that grants before one that would throw, and the other way round, with an IPv6
block; and a regular expression that is refused. -/
example : (let _ := insertionOrder
    let E P := (buildRoleLinks (enforcer (plainModel mIp P))).2
    let K P := (buildRoleLinks (enforcer (plainModel mKey P))).2
    ((E [[c!"1::/64", c!"d", c!"read"], [c!"x", c!"d", c!"read"]]).enforce (stdLib noRx)
        [.str c!"1::f", .str c!"d", .str c!"read"]).1 = .ok true ∧
    ((E [[c!"x", c!"d", c!"read"], [c!"1::/64", c!"d", c!"read"]]).enforce (stdLib noRx)
        [.str c!"1::f", .str c!"d", .str c!"read"]).1 = .throw .ipParser ∧
    ((E [[c!"1::/64", c!"d", c!"read"], [c!"x"]]).enforce (stdLib noRx)
        [.str c!"alice", .str c!"d", .str c!"read"]).1 = .throw .illegalArgument ∧
    ((E [[c!"2::/64", c!"d", c!"read"], [c!"x"]]).enforce (stdLib noRx)
        [.str c!"1::f", .str c!"d", .str c!"read"]).1 = .throw .enforcer ∧
    ((K [[c!"alice", c!"/a/*", c!"GET"], [c!"bob", c!"/b", c!"("]]).enforce (stdLib wordRx)
        [.str c!"alice", .str c!"/a/1", .str c!"GET"]).1 = .ok true ∧
    ((K [[c!"alice", c!"/a/*", c!"GET"], [c!"bob", c!"/b", c!"("]]).enforce (stdLib wordRx)
        [.str c!"alice", .str c!"/c", .str c!"GET"]).1 = .throw .text) := by
  decide +kernel

end TextProps
end Casbin
