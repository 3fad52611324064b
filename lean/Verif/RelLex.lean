import Verif.Rel
/-!
# Related runs: blanks, reserved words, arithmetic
-/
namespace Conch

variable {I J : Type} [TokStream I] [TokStream J] {B C : Builder}
variable {S : StreamSim I J} {H : Hom B C} {α β : Type}

/-- Rewrites the first look-ahead step of both sides to the same token. -/
theorem mp_step {m : TokStream.MP I} {m' : TokStream.MP J} (h : S.RM m m') :
    ∃ t n n', TokStream.mpNext m = (t, n) ∧ TokStream.mpNext m' = (t, n') ∧ S.RM n n' :=
  ⟨_, _, _, rfl, Prod.ext (S.mpNext h).1.symm rfl, (S.mpNext h).2⟩

theorem rel_skipWs : Rel S H id (loop skipWsBody ()) (loop skipWsBody ()) := by
  refine rel_loop (g := id) rfl fun _ => ?_
  unfold skipWsBody
  rel
macro_rules | `(tactic| rel_lemma) => `(tactic| exact rel_skipWs)

theorem mp_backslashNewline : MPRel S mpBackslashNewline mpBackslashNewline := by
  intro m m' h
  unfold mpBackslashNewline
  obtain ⟨t, n, n', h1, h2, h3⟩ := mp_step h
  rw [h1, h2]
  simp only
  split
  · obtain ⟨t, n, n', h1, h2, h3⟩ := mp_step h3
    rw [h1, h2]
    exact ⟨rfl, h3⟩
  · exact ⟨rfl, h3⟩
macro_rules | `(tactic| rel_lemma) => `(tactic| exact rel_lookahead mp_backslashNewline)

theorem rel_skipWhitespace : Rel S H id skipWhitespace skipWhitespace := by
  refine rel_loop (g := id) rfl fun _ => ?_
  unfold skipWhitespaceBody
  rel
macro_rules | `(tactic| rel_lemma) => `(tactic| exact rel_skipWhitespace)

theorem rel_takeComment : Rel S H id (loop takeCommentBody []) (loop takeCommentBody []) := by
  refine rel_loop (g := id) rfl fun _ => ?_
  unfold takeCommentBody
  rel
macro_rules | `(tactic| rel_lemma) => `(tactic| exact rel_takeComment)

theorem rel_newline : Rel S H id newline newline := by
  unfold newline
  rel
macro_rules | `(tactic| rel_lemma) => `(tactic| exact rel_newline)

theorem rel_linebreak : Rel S H id linebreak linebreak := by
  refine rel_loop (g := id) rfl fun _ => ?_
  unfold linebreakBody
  rel
macro_rules | `(tactic| rel_lemma) => `(tactic| exact rel_linebreak)

theorem mp_reservedToken (ts : List Token) : MPRel S (mpReservedToken ts) (mpReservedToken ts) := by
  intro m m' h
  unfold mpReservedToken
  obtain ⟨t, n, n', h1, h2, h3⟩ := mp_step h
  rw [h1, h2]
  cases t with
  | none => exact ⟨rfl, h3⟩
  | some t =>
    simp only
    split
    · obtain ⟨t, n, n', h1, h2, h3⟩ := mp_step h3
      rw [h1, h2]
      cases t <;> exact ⟨rfl, h3⟩
    · exact ⟨rfl, h3⟩
macro_rules | `(tactic| rel_lemma) => `(tactic| exact rel_lookahead (mp_reservedToken _))

theorem rel_peekReservedTokenTries (ts : List Token) (n : Nat) :
    Rel S H id (peekReservedTokenTries ts n) (peekReservedTokenTries ts n) := by
  induction n with
  | zero => exact rel_pure rfl
  | succ n ih =>
    unfold peekReservedTokenTries
    rel
    exact ih
macro_rules | `(tactic| rel_lemma) => `(tactic| exact rel_peekReservedTokenTries _ _)

theorem rel_peekReservedToken (ts : List Token) :
    Rel S H id (peekReservedToken ts) (peekReservedToken ts) := by
  unfold peekReservedToken
  rel
macro_rules | `(tactic| rel_lemma) => `(tactic| exact rel_peekReservedToken _)

theorem mp_reservedWord (ts : List Str) : MPRel S (mpReservedWord ts) (mpReservedWord ts) := by
  intro m m' h
  unfold mpReservedWord
  obtain ⟨t, n, n', h1, h2, h3⟩ := mp_step h
  rw [h1, h2]
  simp only
  obtain ⟨u, n, n', h1, h2, h3⟩ := mp_step h3
  rw [h1, h2]
  cases u <;> exact ⟨rfl, h3⟩
macro_rules | `(tactic| rel_lemma) => `(tactic| exact rel_lookahead (mp_reservedWord _))

theorem rel_peekReservedWord (ts : List Str) :
    Rel S H id (peekReservedWord ts) (peekReservedWord ts) := by
  unfold peekReservedWord
  rel
macro_rules | `(tactic| rel_lemma) => `(tactic| exact rel_peekReservedWord _)

theorem rel_reservedToken' (ts : List Token) :
    Rel S H id (reservedToken' ts) (reservedToken' ts) := by
  unfold reservedToken'
  rel
macro_rules | `(tactic| rel_lemma) => `(tactic| exact rel_reservedToken' _)

theorem rel_reservedToken (ts : List Token) :
    Rel S H id (reservedToken ts) (reservedToken ts) := by
  unfold reservedToken
  rel
macro_rules | `(tactic| rel_lemma) => `(tactic| exact rel_reservedToken _)

theorem rel_reservedWord (ts : List Str) :
    Rel S H id (reservedWord ts) (reservedWord ts) := by
  unfold reservedWord
  rel
macro_rules | `(tactic| rel_lemma) => `(tactic| exact rel_reservedWord _)

/-! ## Arithmetic -/

theorem rel_arithVar : Rel S H id arithVar arithVar := by
  unfold arithVar
  rel
macro_rules | `(tactic| rel_lemma) => `(tactic| exact rel_arithVar)

theorem mp_postIncr : MPRel S mpPostIncr mpPostIncr := by
  intro m m' h
  unfold mpPostIncr
  obtain ⟨t, n, n', h1, h2, h3⟩ := mp_step h
  rw [h1, h2]
  obtain ⟨u, k, k', e1, e2, h4⟩ := mp_step h3
  by_cases hp : t = some .Plus
  · subst hp; simp only; rw [e1, e2]; exact ⟨rfl, h4⟩
  by_cases hd : t = some .Dash
  · subst hd; simp only; rw [e1, e2]; exact ⟨rfl, h4⟩
  cases t with
  | none => exact ⟨rfl, h3⟩
  | some t => cases t <;> first | exact ⟨rfl, h3⟩ | exact absurd rfl hp | exact absurd rfl hd
macro_rules | `(tactic| rel_lemma) => `(tactic| exact rel_lookahead mp_postIncr)

theorem rel_arithVarPost : Rel S H id arithVarPost arithVarPost := by
  unfold arithVarPost
  rel
macro_rules | `(tactic| rel_lemma) => `(tactic| exact rel_arithVarPost)

/-- Related recursive occurrences. -/
structure ArithRel (S : StreamSim I J) (H : Hom B C) (R : ArithRec I B) (R' : ArithRec J C) :
    Prop where
  subst : Rel S H id R.subst R'.subst
  assig : Rel S H id R.assig R'.assig
  ternary : Rel S H id R.ternary R'.ternary
  pow : Rel S H id R.pow R'.pow
  unary : Rel S H id R.unary R'.unary

section
variable {R : ArithRec I B} {R' : ArithRec J C} (hR : ArithRel S H R R')
include hR
macro_rules | `(tactic| rel_lemma) => `(tactic| exact ArithRel.subst (by assumption))
macro_rules | `(tactic| rel_lemma) => `(tactic| exact ArithRel.assig (by assumption))
macro_rules | `(tactic| rel_lemma) => `(tactic| exact ArithRel.ternary (by assumption))
macro_rules | `(tactic| rel_lemma) => `(tactic| exact ArithRel.pow (by assumption))
macro_rules | `(tactic| rel_lemma) => `(tactic| exact ArithRel.unary (by assumption))

theorem rel_arithPostIncr : Rel S H id (arithPostIncr R) (arithPostIncr R') := by
  unfold arithPostIncr
  rel
macro_rules | `(tactic| rel_lemma) => `(tactic| exact rel_arithPostIncr (by assumption))

theorem rel_arithUnary : Rel S H id (arithUnary R) (arithUnary R') := by
  unfold arithUnary
  rel
macro_rules | `(tactic| rel_lemma) => `(tactic| exact rel_arithUnary (by assumption))

omit hR in
theorem mp_doubleStar : MPRel S mpDoubleStar mpDoubleStar := by
  intro m m' h
  unfold mpDoubleStar
  obtain ⟨t, n, n', h1, h2, h3⟩ := mp_step h
  rw [h1, h2]
  simp only
  split
  · obtain ⟨t, n, n', h1, h2, h3⟩ := mp_step h3
    rw [h1, h2]
    exact ⟨rfl, h3⟩
  · exact ⟨rfl, h3⟩
macro_rules | `(tactic| rel_lemma) => `(tactic| exact rel_lookahead mp_doubleStar)

theorem rel_arithPow : Rel S H id (arithPow R) (arithPow R') := by
  unfold arithPow
  rel

omit hR in
theorem rel_arithBin {sub : P I B DefaultArithmetic} {sub' : P J C DefaultArithmetic}
    (h : Rel S H id sub sub') (op) : Rel S H id (arithBin sub op) (arithBin sub' op) := by
  unfold arithBin
  refine rel_bind' h fun e => ?_
  refine rel_loop (g := id) rfl fun x => ?_
  unfold arithBinBody
  refine rel_bind' rel_skipWhitespace fun _ => ?_
  refine rel_bind' rel_peek fun t => ?_
  cases t with
  | none => exact rel_pure rfl
  | some t =>
    simp only
    cases op t with
    | none => exact rel_pure rfl
    | some mk =>
      refine rel_bind' rel_next fun _ => ?_
      refine rel_bind' h fun _ => ?_
      exact rel_pure rfl

theorem rel_arithMult : Rel S H id (arithMult R) (arithMult R') := rel_arithBin (rel_arithPow hR) _
theorem rel_arithAdd : Rel S H id (arithAdd R) (arithAdd R') := rel_arithBin (rel_arithMult hR) _
theorem rel_arithShift : Rel S H id (arithShift R) (arithShift R') :=
  rel_arithBin (rel_arithAdd hR) _
macro_rules | `(tactic| rel_lemma) => `(tactic| exact rel_arithShift (by assumption))

theorem rel_arithIneq : Rel S H id (arithIneq R) (arithIneq R') := by
  unfold arithIneq
  refine rel_bind' (rel_arithShift hR) fun e => ?_
  refine rel_loop (g := id) rfl fun x => ?_
  unfold arithIneqBody
  rel
macro_rules | `(tactic| rel_lemma) => `(tactic| exact rel_arithIneq (by assumption))

theorem rel_arithEq : Rel S H id (arithEq R) (arithEq R') := by
  unfold arithEq
  refine rel_bind' (rel_arithIneq hR) fun e => ?_
  refine rel_loop (g := id) rfl fun x => ?_
  unfold arithEqBody
  rel

theorem rel_arithBitAnd : Rel S H id (arithBitAnd R) (arithBitAnd R') :=
  rel_arithBin (rel_arithEq hR) _
theorem rel_arithBitXor : Rel S H id (arithBitXor R) (arithBitXor R') :=
  rel_arithBin (rel_arithBitAnd hR) _
theorem rel_arithBitOr : Rel S H id (arithBitOr R) (arithBitOr R') :=
  rel_arithBin (rel_arithBitXor hR) _
theorem rel_arithLogAnd : Rel S H id (arithLogAnd R) (arithLogAnd R') :=
  rel_arithBin (rel_arithBitOr hR) _
theorem rel_arithLogOr : Rel S H id (arithLogOr R) (arithLogOr R') :=
  rel_arithBin (rel_arithLogAnd hR) _
macro_rules | `(tactic| rel_lemma) => `(tactic| exact rel_arithLogOr (by assumption))

theorem rel_arithTernary : Rel S H id (arithTernary R) (arithTernary R') := by
  unfold arithTernary
  rel
macro_rules | `(tactic| rel_lemma) => `(tactic| exact rel_arithTernary (by assumption))

omit hR in
theorem mp_assigOp (k : Nat) : MPRel S (mpAssigOp k) (mpAssigOp k) := by
  induction k with
  | zero => intro m m' h; exact ⟨rfl, h⟩
  | succ k ih =>
    intro m m' h
    unfold mpAssigOp
    obtain ⟨t, n, n', h1, h2, h3⟩ := mp_step h
    rw [h1, h2]
    obtain ⟨u, q, q', e1, e2, h4⟩ := mp_step h3
    cases t with
    | none => exact ⟨rfl, h3⟩
    | some t =>
      simp only
      rw [e1, e2]
      split
      · exact ih _ _ h3
      · split
        · exact ⟨rfl, h4⟩
        · split
          · exact ⟨rfl, h4⟩
          · exact ⟨rfl, h3⟩

omit hR in
theorem mp_assig (k : Nat) : MPRel S (mpAssig k) (mpAssig k) := by
  induction k with
  | zero => intro m m' h; exact ⟨rfl, h⟩
  | succ k ih =>
    intro m m' h
    unfold mpAssig
    obtain ⟨t, n, n', h1, h2, h3⟩ := mp_step h
    rw [h1, h2]
    cases t with
    | none => exact ⟨rfl, h3⟩
    | some t => cases t <;> first | exact ⟨rfl, h3⟩ | exact ih _ _ h3 | exact mp_assigOp _ _ _ h3

omit hR in
theorem rel_assigLookahead : Rel S H id
    (fun s => lookahead (mpAssig (TokStream.len s.it + 2)) s)
    (fun s => lookahead (mpAssig (TokStream.len s.it + 2)) s) :=
  rel_len (m := fun n => lookahead (mpAssig n)) (m' := fun n => lookahead (mpAssig n))
    (fun n => rel_lookahead (mp_assig n)) 2

theorem rel_arithAssig : Rel S H id (arithAssig R) (arithAssig R') := by
  unfold arithAssig
  refine rel_bind' rel_skipWhitespace fun _ => ?_
  refine rel_bind' rel_assigLookahead fun _ => ?_
  rel
macro_rules | `(tactic| rel_lemma) => `(tactic| exact rel_arithAssig (by assumption))

theorem rel_arithSubst : Rel S H id (arithSubst R) (arithSubst R') := by
  unfold arithSubst
  have : Rel S H id (loop (arithSubstBody R) []) (loop (arithSubstBody R') []) := by
    refine rel_loop (g := id) rfl fun x => ?_
    unfold arithSubstBody
    rel
  refine rel_bind' this fun x => ?_
  rel

end

theorem arithRel_fix (n : Nat) :
    ArithRel S H (ArithRec.fix n : ArithRec I B) (ArithRec.fix n : ArithRec J C) := by
  induction n with
  | zero => exact ⟨rel_outOfFuel, rel_outOfFuel, rel_outOfFuel, rel_outOfFuel, rel_outOfFuel⟩
  | succ n ih =>
    exact ⟨rel_arithSubst ih, rel_arithAssig ih, rel_arithTernary ih, rel_arithPow ih,
      rel_arithUnary ih⟩

theorem rel_arithmeticSubstitution :
    Rel S H id arithmeticSubstitution arithmeticSubstitution :=
  rel_len (m := fun n => arithSubst (ArithRec.fix n)) (m' := fun n => arithSubst (ArithRec.fix n))
    (fun n => rel_arithSubst (arithRel_fix n)) 1
macro_rules | `(tactic| rel_lemma) => `(tactic| exact rel_arithmeticSubstitution)

end Conch
