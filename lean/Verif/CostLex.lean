import Verif.Cost
/-!
# How often the builder is called: blanks, reserved words, quotes, arithmetic
-/
namespace Conch
open Spec
namespace Cost

variable {B : Builder} {M : Meter B} {w c : Nat} {α β σ : Type}

/-! ## Look-aheads -/

theorem la_mpBackslashNewline : Cn M w c (lookahead mpBackslashNewline : P AIter B Bool) (fun _ => c) := cn_lookahead (mpBackslashNewline_it)
macro_rules | `(tactic| cn_lemma) => `(tactic| exact la_mpBackslashNewline)

theorem la_mpSecondNewline : Cn M w c (lookahead mpSecondNewline : P AIter B Bool) (fun _ => c) := cn_lookahead (fun _ => rfl)
macro_rules | `(tactic| cn_lemma) => `(tactic| exact la_mpSecondNewline)

theorem la_mpSecondParenOpen : Cn M w c (lookahead mpSecondParenOpen : P AIter B Bool) (fun _ => c) := cn_lookahead (fun _ => rfl)
macro_rules | `(tactic| cn_lemma) => `(tactic| exact la_mpSecondParenOpen)

theorem la_mpAssignment : Cn M w c (lookahead mpAssignment : P AIter B Bool) (fun _ => c) := cn_lookahead (mpAssignment_it)
macro_rules | `(tactic| cn_lemma) => `(tactic| exact la_mpAssignment)

theorem la_mpFunction : Cn M w c (lookahead mpFunction : P AIter B Bool) (fun _ => c) := cn_lookahead (mpFunction_it)
macro_rules | `(tactic| cn_lemma) => `(tactic| exact la_mpFunction)

theorem la_mpPostIncr : Cn M w c (lookahead mpPostIncr : P AIter B Bool) (fun _ => c) := cn_lookahead (mpPostIncr_it)
macro_rules | `(tactic| cn_lemma) => `(tactic| exact la_mpPostIncr)

theorem la_mpDoubleStar : Cn M w c (lookahead mpDoubleStar : P AIter B Bool) (fun _ => c) := cn_lookahead (mpDoubleStar_it)
macro_rules | `(tactic| cn_lemma) => `(tactic| exact la_mpDoubleStar)

theorem la_mpReservedToken (ts : List Token) :
    Cn M w c (lookahead (mpReservedToken ts) : P AIter B _) (fun _ => c) := cn_lookahead (mpReservedToken_it ts)
macro_rules | `(tactic| cn_lemma) => `(tactic| exact la_mpReservedToken _)

theorem la_mpReservedWord (ws : List Str) :
    Cn M w c (lookahead (mpReservedWord ws) : P AIter B _) (fun _ => c) := cn_lookahead (mpReservedWord_it ws)
macro_rules | `(tactic| cn_lemma) => `(tactic| exact la_mpReservedWord _)

/-! ## Blanks and reserved words -/

theorem cn_skipWs : Cn M w c (loop skipWsBody () : P AIter B _) (fun _ => c) := by
  refine cn_loop (fun _ => c) fun _ => ?_
  unfold skipWsBody
  cn
macro_rules | `(tactic| cn_lemma) => `(tactic| exact cn_skipWs)

theorem cn_skipWhitespace : Cn M w c (skipWhitespace : P AIter B _) (fun _ => c) := by
  refine cn_loop (fun _ => c) fun _ => ?_
  unfold skipWhitespaceBody
  cn
macro_rules | `(tactic| cn_lemma) => `(tactic| exact cn_skipWhitespace)

theorem cn_takeCommentN (n : Nat) (acc : List Token) :
    Cn M w c (loopN takeCommentBody n acc : P AIter B _) (fun _ => c) := by
  induction n generalizing acc with
  | zero => exact cn_outOfFuel
  | succ n ih =>
    refine cn_bind (d1 := fun _ => c) ?_ ?_
    · unfold takeCommentBody
      cn
    · rintro (y | a)
      · exact ih y
      · cn

theorem cn_newline : Cn M w c (newline : P AIter B _) (fun r => c + worth w r) := by
  unfold newline
  refine cn_bind cn_skipWhitespace fun _ => ?_
  unfold Cn
  rintro ⟨⟨l, e⟩, b⟩
  cases l with
  | nil => exact within_ok (Nat.le_refl _)
  | cons x l =>
    obtain ⟨q, t⟩ := x
    have e1 : M.μ b + w * l.length + (c + w) ≤ M.μ b + w * (l.length + 1) + c := by
      rw [Nat.mul_add]; omega
    by_cases h1 : t = .Newline
    · subst h1
      exact within_ok e1
    by_cases h2 : t = .Pound
    · subst h2
      have key : Cn M w (c + w) (loopN takeCommentBody (l.length + 2) [.Pound] >>= fun r =>
          pure (some ⟨some (concatTokens r)⟩) : P AIter B (Option Nl)) (fun r => c + worth w r) :=
        cn_bind (cn_takeCommentN _ _) fun _ => cn_pure (Nat.le_refl _)
      unfold Cn at key
      exact (key ⟨⟨l, e⟩, b⟩).mono e1 fun a => Nat.add_le_add_right e1 _
    · cases t <;> first
        | exact within_ok (Nat.le_refl _)
        | exact absurd rfl h1
        | exact absurd rfl h2
macro_rules | `(tactic| cn_lemma) => `(tactic| exact cn_newline)

/-- What a list is worth whose elements show that tokens were consumed. -/
def worthL (w : Nat) (l : List α) : Nat := if l.isEmpty then 0 else w

@[simp] theorem worthL_nil : worthL w ([] : List α) = 0 := rfl
@[simp] theorem worthL_cons {a : α} {l : List α} : worthL w (a :: l) = w := rfl
@[simp] theorem worthL_snoc {a : α} {l : List α} : worthL w (l ++ [a]) = w := by cases l <;> rfl
theorem worthL_le {l : List α} : worthL w l ≤ w := by cases l <;> simp

theorem cn_linebreak : Cn M w c (linebreak : P AIter B _) (fun r => c + worthL w r) := by
  refine cn_loop (fun r => c + worthL w r) fun _ => ?_
  unfold linebreakBody
  cn
macro_rules | `(tactic| cn_lemma) => `(tactic| exact cn_linebreak)

theorem cn_peekReservedTokenTries {ts : List Token} (n : Nat) :
    Cn M w c (peekReservedTokenTries ts n : P AIter B _) (fun _ => c) := by
  induction n with
  | zero => exact cn_pure (Nat.le_refl _)
  | succ n ih =>
    unfold peekReservedTokenTries
    cn
    exact ih
macro_rules | `(tactic| cn_lemma) => `(tactic| exact cn_peekReservedTokenTries _)

theorem cn_peekReservedToken {ts : List Token} : Cn M w c (peekReservedToken ts : P AIter B _) (fun _ => c) := by
  unfold peekReservedToken
  cn
macro_rules | `(tactic| cn_lemma) => `(tactic| exact cn_peekReservedToken)

theorem cn_peekReservedWord (ws : List Str) : Cn M w c (peekReservedWord ws : P AIter B _) (fun _ => c) := by
  unfold peekReservedWord
  cn
macro_rules | `(tactic| cn_lemma) => `(tactic| exact cn_peekReservedWord _)

theorem cn_reservedToken' {ts : List Token} : Cn M w c (reservedToken' ts : P AIter B _) (fun r => c + worth w r) := by
  unfold reservedToken'
  cn
macro_rules | `(tactic| cn_lemma) => `(tactic| exact cn_reservedToken')

theorem cn_reservedToken {ts : List Token} : Cn M w c (reservedToken ts : P AIter B _) (fun _ => c + w) := by
  unfold reservedToken
  cn
macro_rules | `(tactic| cn_lemma) => `(tactic| exact cn_reservedToken)

theorem cn_reservedWord (ws : List Str) : Cn M w c (reservedWord ws : P AIter B _) (fun r => c + worth w r) := by
  have key : Cn M w c ((lookahead (mpReservedWord ws) >>= fun r => match r with
      | some s => next >>= fun _ => pure (some s)
      | none => pure none) : P AIter B (Option Str)) (fun r => c + worth w r) := by
    unfold Cn
    rintro ⟨⟨l, e⟩, b⟩
    rw [lookahead_bind (mpReservedWord_it ws _)]
    cases l with
    | nil => exact within_ok (Nat.le_refl _)
    | cons x l =>
      generalize (mpReservedWord (I := AIter) ws (AMultipeek.mk ⟨x :: l, e⟩ ((x :: l).map (·.2)))).1 = r
      cases r with
      | some s =>
        refine within_ok ?_
        show M.μ b + w * l.length + (c + w) ≤ M.μ b + w * (l.length + 1) + c
        rw [Nat.mul_add]; omega
      | none => exact within_ok (Nat.le_refl _)
  unfold reservedWord peekReservedWord
  cases ws with
  | nil => unfold Cn; exact fun s => within_ok (Nat.le_refl _)
  | cons v ws =>
    show Cn M w c ((skipWhitespace >>= fun _ => lookahead (mpReservedWord (v :: ws))) >>= _) _
    rw [bind_assoc]
    exact cn_bind cn_skipWhitespace fun _ => key
macro_rules | `(tactic| cn_lemma) => `(tactic| exact cn_reservedWord _)

/-! ## Quotes and backticks -/

theorem cn_singleQuoted (pos : SourcePos) :
    Cn M w c (scan (fun it => takeSingleQuoted it pos) : P AIter B _) (fun _ => c) := by
  refine (cn_scan (k := fun _ => 0) ?_).weaken (by simp)
  rintro ⟨l, e⟩ ts h
  change (takeRegion (⟨l, e⟩ : AIter) .SingleQuote pos).1 = _ at h
  show (takeRegion (⟨l, e⟩ : AIter) .SingleQuote pos).2.rest.length + 0 ≤ _
  rcases closed_or_unclosed l .SingleQuote pos (.inl rfl) with ⟨xs, q, ys, rfl, hb⟩ | ⟨er, hu⟩
  · rw [takeRegion_closed hb (.inl rfl) pos q ys e]
    simp
    omega
  · rw [takeRegion_unclosed hu (.inl rfl)] at h
    cases h
macro_rules | `(tactic| cn_lemma) => `(tactic| exact cn_singleQuoted _)

theorem cn_takeBalanced : Cn M w c (scan takeBalanced : P AIter B _) (fun ts => c + w * ts.length) := by
  refine cn_scan (k := List.length) ?_
  rintro ⟨l, e⟩ ts h
  rcases unit_or_unclosed l with ⟨u, rest, rfl, hu⟩ | ⟨er, hu⟩
  · rw [takeBalanced_unit hu e] at h ⊢
    cases h
    simp
    omega
  · rw [takeBalanced_unclosed hu e] at h
    cases h
macro_rules | `(tactic| cn_lemma) => `(tactic| exact cn_takeBalanced)

/-- A scan without calls. -/
theorem cn_quietScan {f : AIter → Collected × AIter} : Cn M 0 c (scan f : P AIter B _) (fun _ => c) := by
  unfold Cn
  intro s
  unfold scan
  generalize f s.it = z
  obtain ⟨r, i⟩ := z
  cases r with
  | ok ts => exact within_ok (by simp)
  | unmatched e => exact within_err (by simp) (by simp)
  | fuel => exact within_err (by simp) (by simp)

/-! ## Arithmetic -/

theorem cn_arithVar : Cn M w c (arithVar : P AIter B _) (fun _ => c) := by
  unfold arithVar
  cn
macro_rules | `(tactic| cn_lemma) => `(tactic| exact cn_arithVar)

theorem cn_arithVarPost : Cn M w c (arithVarPost : P AIter B _) (fun _ => c) := by
  unfold arithVarPost
  cn
macro_rules | `(tactic| cn_lemma) => `(tactic| exact cn_arithVarPost)

/-- The recursive occurrences spend nothing. -/
structure ArithCn (M : Meter B) (w : Nat) (R : ArithRec AIter B) : Prop where
  subst : ∀ {c}, Cn M w c R.subst (fun _ => c)
  assig : ∀ {c}, Cn M w c R.assig (fun _ => c)
  ternary : ∀ {c}, Cn M w c R.ternary (fun _ => c)
  pow : ∀ {c}, Cn M w c R.pow (fun _ => c)
  unary : ∀ {c}, Cn M w c R.unary (fun _ => c)

macro_rules | `(tactic| cn_lemma) => `(tactic| exact ArithCn.subst (by assumption))
macro_rules | `(tactic| cn_lemma) => `(tactic| exact ArithCn.assig (by assumption))
macro_rules | `(tactic| cn_lemma) => `(tactic| exact ArithCn.ternary (by assumption))
macro_rules | `(tactic| cn_lemma) => `(tactic| exact ArithCn.pow (by assumption))
macro_rules | `(tactic| cn_lemma) => `(tactic| exact ArithCn.unary (by assumption))

section
variable {R : ArithRec AIter B} (hR : ArithCn M w R)
include hR

theorem cn_arithPostIncr : Cn M w c (arithPostIncr R) (fun _ => c) := by
  unfold arithPostIncr
  cn
macro_rules | `(tactic| cn_lemma) => `(tactic| exact cn_arithPostIncr (by assumption))

theorem cn_arithUnary : Cn M w c (arithUnary R) (fun _ => c) := by
  unfold arithUnary
  cn
macro_rules | `(tactic| cn_lemma) => `(tactic| exact cn_arithUnary (by assumption))

theorem cn_arithPow : Cn M w c (arithPow R) (fun _ => c) := by
  unfold arithPow
  cn
macro_rules | `(tactic| cn_lemma) => `(tactic| exact cn_arithPow (by assumption))

omit hR in
theorem cn_arithBin {sub : P AIter B DefaultArithmetic} {op}
    (h : ∀ {c}, Cn M w c sub (fun _ => c)) : Cn M w c (arithBin sub op) (fun _ => c) := by
  unfold arithBin
  refine cn_bind h fun _ => cn_loop (fun _ => c) fun _ => ?_
  unfold arithBinBody
  cn
  refine cn_bind h fun _ => ?_
  cn

theorem cn_arithShift : Cn M w c (arithShift R) (fun _ => c) :=
  cn_arithBin (cn_arithBin (cn_arithBin (cn_arithPow hR)))
macro_rules | `(tactic| cn_lemma) => `(tactic| exact cn_arithShift (by assumption))

theorem cn_arithIneq : Cn M w c (arithIneq R) (fun _ => c) := by
  unfold arithIneq
  cn
  refine cn_loop (fun _ => c) fun _ => ?_
  unfold arithIneqBody
  cn
macro_rules | `(tactic| cn_lemma) => `(tactic| exact cn_arithIneq (by assumption))

theorem cn_arithEq : Cn M w c (arithEq R) (fun _ => c) := by
  unfold arithEq
  cn
  refine cn_loop (fun _ => c) fun _ => ?_
  unfold arithEqBody
  cn

theorem cn_arithLogOr : Cn M w c (arithLogOr R) (fun _ => c) :=
  cn_arithBin (cn_arithBin (cn_arithBin (cn_arithBin (cn_arithBin (cn_arithEq hR)))))
macro_rules | `(tactic| cn_lemma) => `(tactic| exact cn_arithLogOr (by assumption))

theorem cn_arithTernary : Cn M w c (arithTernary R) (fun _ => c) := by
  unfold arithTernary
  cn
macro_rules | `(tactic| cn_lemma) => `(tactic| exact cn_arithTernary (by assumption))

theorem cn_arithAssig : Cn M w c (arithAssig R) (fun _ => c) := by
  unfold arithAssig
  refine cn_bind cn_skipWhitespace fun _ => cn_bind (cn_len fun n => cn_lookahead (mpAssig_it n)) fun _ => ?_
  cn
macro_rules | `(tactic| cn_lemma) => `(tactic| exact cn_arithAssig (by assumption))

theorem cn_arithSubst : Cn M w c (arithSubst R) (fun _ => c) := by
  unfold arithSubst
  refine cn_bind (cn_loop (fun _ => c) (d := fun _ => c) fun _ => ?_) fun _ => ?_
  · unfold arithSubstBody
    cn
  · cn

end

theorem arithCn_fix (n : Nat) : ArithCn M w (ArithRec.fix n : ArithRec AIter B) := by
  induction n with
  | zero => exact ⟨cn_outOfFuel, cn_outOfFuel, cn_outOfFuel, cn_outOfFuel, cn_outOfFuel⟩
  | succ n ih => exact ⟨cn_arithSubst ih, cn_arithAssig ih, cn_arithTernary ih, cn_arithPow ih, cn_arithUnary ih⟩

theorem cn_arithmeticSubstitution : Cn M w c (arithmeticSubstitution : P AIter B _) (fun _ => c) :=
  cn_len (m := fun n => arithSubst (ArithRec.fix n)) fun n => cn_arithSubst (arithCn_fix n)
macro_rules | `(tactic| cn_lemma) => `(tactic| exact cn_arithmeticSubstitution)

end Cost
end Conch
