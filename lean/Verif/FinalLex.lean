import Verif.Final
/-!
# Errors that no continuation can repair: blanks, reserved words, quotes, arithmetic
-/
namespace Conch
open Spec
namespace Final

variable {α β σ : Type}

/-! ## Look-aheads -/

/-- The first two tokens of a whole stream, if the first one is no newline. -/
theorem two {l : List Token} (h : l.getLast? = some .Newline) :
    l = [.Newline] ∨ ∃ t u r, l = t :: u :: r := by
  match l, h with
  | [t], h => simp at h; exact .inl (by rw [h])
  | t :: u :: r, _ => exact .inr ⟨t, u, r, rfl⟩

theorem la_mpBackslashNewline : Ex (lookahead mpBackslashNewline : Q Bool) (lookahead mpBackslashNewline) := by
  refine ex_lookahead mpBackslashNewline_it fun l y i j h => ?_
  rcases two h with rfl | ⟨t, u, r, rfl⟩
  · rfl
  · cases t <;> rfl
macro_rules | `(tactic| ex_lemma) => `(tactic| exact la_mpBackslashNewline)

theorem la_mpAssignment : Ex (lookahead mpAssignment : Q Bool) (lookahead mpAssignment) := by
  refine ex_lookahead mpAssignment_it fun l y i j h => ?_
  rcases two h with rfl | ⟨t, u, r, rfl⟩
  · rfl
  · cases t <;> rfl
macro_rules | `(tactic| ex_lemma) => `(tactic| exact la_mpAssignment)

theorem la_mpFunction : Ex (lookahead mpFunction : Q Bool) (lookahead mpFunction) := by
  refine ex_lookahead mpFunction_it fun l y i j h => ?_
  rcases two h with rfl | ⟨t, u, r, rfl⟩
  · rfl
  · have h2 : (u :: r).getLast? = some .Newline := by simpa using h
    rcases two h2 with h3 | ⟨_, u', r', h3⟩
    · cases h3
      cases t <;> rfl
    · cases h3
      cases t <;> first | rfl | (cases u <;> rfl)
macro_rules | `(tactic| ex_lemma) => `(tactic| exact la_mpFunction)

theorem la_mpPostIncr : Ex (lookahead mpPostIncr : Q Bool) (lookahead mpPostIncr) := by
  refine ex_lookahead mpPostIncr_it fun l y i j h => ?_
  rcases two h with rfl | ⟨t, u, r, rfl⟩
  · rfl
  · cases t <;> rfl
macro_rules | `(tactic| ex_lemma) => `(tactic| exact la_mpPostIncr)

theorem la_mpDoubleStar : Ex (lookahead mpDoubleStar : Q Bool) (lookahead mpDoubleStar) := by
  refine ex_lookahead mpDoubleStar_it fun l y i j h => ?_
  rcases two h with rfl | ⟨t, u, r, rfl⟩
  · rfl
  · cases t <;> rfl
macro_rules | `(tactic| ex_lemma) => `(tactic| exact la_mpDoubleStar)

theorem la_mpReservedToken (ts : List Token) (hn : Token.Newline ∉ ts) :
    Ex (lookahead (mpReservedToken ts) : Q _) (lookahead (mpReservedToken ts)) := by
  refine ex_lookahead (mpReservedToken_it ts) fun l y i j h => ?_
  rcases two h with rfl | ⟨t, u, r, rfl⟩
  · have : ts.contains Token.Newline = false := by simpa using hn
    simp [mpReservedToken, TokStream.mpNext, hn]
  · simp only [mpReservedToken, TokStream.mpNext, List.head?_cons, List.tail_cons, List.cons_append]
    split <;> rfl

theorem la_mpReservedWord (ws : List Str) :
    Ex (lookahead (mpReservedWord ws) : Q _) (lookahead (mpReservedWord ws)) := by
  refine ex_lookahead (mpReservedWord_it ws) fun l y i j h => ?_
  rcases two h with rfl | ⟨t, u, r, rfl⟩
  · cases y <;> simp [mpReservedWord, TokStream.mpNext]
  · rfl
macro_rules | `(tactic| ex_lemma) => `(tactic| exact la_mpReservedWord _)

/-! ## Blanks and reserved words -/

theorem ex_skipWs : Ex (loop skipWsBody () : Q _) (loop skipWsBody ()) := by
  refine ex_loop fun _ => ?_
  unfold skipWsBody
  ex
macro_rules | `(tactic| ex_lemma) => `(tactic| exact ex_skipWs)

theorem ex_skipWhitespace : Ex (skipWhitespace : Q _) skipWhitespace := by
  refine ex_loop fun _ => ?_
  unfold skipWhitespaceBody
  ex
macro_rules | `(tactic| ex_lemma) => `(tactic| exact ex_skipWhitespace)

theorem ex_takeComment : Ex (loop takeCommentBody [] : Q _) (loop takeCommentBody []) := by
  refine ex_loop fun _ => ?_
  unfold takeCommentBody
  ex
macro_rules | `(tactic| ex_lemma) => `(tactic| exact ex_takeComment)

theorem ex_newline : Ex (newline : Q _) newline := by
  unfold newline
  ex
macro_rules | `(tactic| ex_lemma) => `(tactic| exact ex_newline)

theorem ex_linebreak : Ex (linebreak : Q _) linebreak := by
  refine ex_loop fun _ => ?_
  unfold linebreakBody
  ex
macro_rules | `(tactic| ex_lemma) => `(tactic| exact ex_linebreak)

theorem ex_peekReservedTokenTries {ts : List Token} (hn : Token.Newline ∉ ts) (n : Nat) :
    Ex (peekReservedTokenTries ts n : Q _) (peekReservedTokenTries ts n) := by
  induction n with
  | zero => exact ex_pure
  | succ n ih =>
    unfold peekReservedTokenTries
    refine ex_bind (la_mpReservedToken ts hn) fun _ => ?_
    ex
    exact ih

theorem ex_peekReservedToken {ts : List Token} (hn : Token.Newline ∉ ts) :
    Ex (peekReservedToken ts : Q _) (peekReservedToken ts) := by
  unfold peekReservedToken
  split
  · ex
  · split
    · exact ex_peekReservedTokenTries hn _
    · exact ex_bind ex_skipWhitespace fun _ => ex_peekReservedTokenTries hn _
macro_rules | `(tactic| ex_lemma) => `(tactic| ((refine ex_peekReservedToken ?_); first | assumption | decide))

theorem ex_peekReservedWord (ws : List Str) : Ex (peekReservedWord ws : Q _) (peekReservedWord ws) := by
  unfold peekReservedWord
  ex
macro_rules | `(tactic| ex_lemma) => `(tactic| exact ex_peekReservedWord _)

theorem ex_reservedToken' {ts : List Token} (hn : Token.Newline ∉ ts) :
    Ex (reservedToken' ts : Q _) (reservedToken' ts) := by
  unfold reservedToken'
  ex
macro_rules | `(tactic| ex_lemma) => `(tactic| ((refine ex_reservedToken' ?_); first | assumption | decide))

theorem ex_reservedToken {ts : List Token} (hn : Token.Newline ∉ ts) :
    Ex (reservedToken ts : Q _) (reservedToken ts) := by
  unfold reservedToken
  ex
macro_rules | `(tactic| ex_lemma) => `(tactic| ((refine ex_reservedToken ?_); first | assumption | decide))

theorem ex_reservedWord (ws : List Str) : Ex (reservedWord ws : Q _) (reservedWord ws) := by
  unfold reservedWord
  ex
macro_rules | `(tactic| ex_lemma) => `(tactic| exact ex_reservedWord _)

/-! ## Scans -/

theorem split_last {c : Token} (hc : c ≠ .Newline) {xs ys v : List PTok} {q p : SourcePos}
    (h : xs ++ (q, c) :: ys = v ++ [(p, .Newline)]) : Whole ys := by
  rcases List.eq_nil_or_concat ys with rfl | ⟨w, a, rfl⟩
  · have := congrArg List.getLast? h
    simp at this
    exact absurd this.2 hc
  · have h' : (xs ++ (q, c) :: w) ++ [a] = v ++ [(p, .Newline)] := by simpa using h
    obtain ⟨-, h2⟩ := List.append_inj' h' rfl
    cases h2
    exact ⟨w, p, by simp⟩

theorem ex_scan {f : AIter → Collected × AIter}
    (h1 : ∀ l y e e', Whole l →
      (∃ ts r, f ⟨l, e⟩ = (.ok ts, ⟨r, e⟩) ∧ f ⟨l ++ y, e'⟩ = (.ok ts, ⟨r ++ y, e'⟩) ∧ (Whole r ∨ r = [])) ∨
      ∃ er, f ⟨l, e⟩ = (.unmatched er, ⟨[], e⟩))
    (h2 : ∀ e, (∃ ts, f ⟨[], e⟩ = (.ok ts, ⟨[], e⟩)) ∨ ∃ er, f ⟨[], e⟩ = (.unmatched er, ⟨[], e⟩)) :
    Ex (scan f : Q _) (scan f) := by
  refine .one (fun s1 s2 a s2' hl e => ?_) fun s hd => ?_
  · obtain ⟨⟨l1, e1⟩, b1⟩ := s1
    obtain ⟨⟨l2, e2⟩, b2⟩ := s2
    unfold Live at hl
    obtain ⟨⟨y, hy⟩, hw⟩ := hl
    simp only at hy hw
    subst hy
    unfold scan at e ⊢
    rcases h1 l1 y e1 e2 hw with ⟨ts, r, h3, h4, h5⟩ | ⟨er, h3⟩
    · simp only [h3]
      simp only [h4] at e
      cases e
      rcases h5 with h5 | rfl
      · refine .inl ⟨rfl, ?_⟩
        unfold Live
        exact ⟨⟨y, rfl⟩, h5⟩
      · exact .inr (by unfold Dead; rfl)
    · simp only [h3]
      exact ⟨by unfold Dead; rfl, trivial⟩
  · obtain ⟨e, b, rfl⟩ := dead_eq hd
    unfold scan
    rcases h2 e with ⟨ts, h3⟩ | ⟨er, h3⟩
    · simp only [h3]
      exact hd
    · simp only [h3]
      exact ⟨hd, trivial⟩

theorem ex_singleQuoted (pos : SourcePos) :
    Ex (scan (fun it => takeSingleQuoted it pos) : Q _) (scan (fun it => takeSingleQuoted it pos)) := by
  refine ex_scan (fun l y e e' hw => ?_) fun e => ?_
  · change (∃ ts r, takeRegion (⟨l, e⟩ : AIter) .SingleQuote pos = _ ∧
      takeRegion (⟨l ++ y, e'⟩ : AIter) .SingleQuote pos = _ ∧ _) ∨ ∃ er, takeRegion (⟨l, e⟩ : AIter) .SingleQuote pos = _
    rcases closed_or_unclosed l .SingleQuote pos (.inl rfl) with ⟨xs, q, ys, rfl, hb⟩ | ⟨er, hu⟩
    · obtain ⟨v, p, hv⟩ := hw
      refine .inl ⟨_, ys, takeRegion_closed hb (.inl rfl) pos q ys e, ?_, .inl (split_last (by simp) hv)⟩
      have h2 := takeRegion_closed hb (.inl rfl) pos q (ys ++ y) e'
      simpa using h2
    · exact .inr ⟨er, takeRegion_unclosed hu (.inl rfl) e⟩
  · change (∃ ts, takeRegion (⟨[], e⟩ : AIter) .SingleQuote pos = _) ∨ ∃ er, takeRegion (⟨[], e⟩ : AIter) .SingleQuote pos = _
    exact .inr ⟨_, takeRegion_unclosed (.here (.nil)) (.inl rfl) e⟩
macro_rules | `(tactic| ex_lemma) => `(tactic| exact ex_singleQuoted _)

theorem whole_suffix {u r : List PTok} (h : Whole (u ++ r)) : Whole r ∨ r = [] := by
  rcases List.eq_nil_or_concat r with rfl | ⟨w, a, rfl⟩
  · exact .inr rfl
  · obtain ⟨v, p, hv⟩ := h
    have h' : (u ++ w) ++ [a] = v ++ [(p, .Newline)] := by simpa using hv
    obtain ⟨-, h2⟩ := List.append_inj' h' rfl
    cases h2
    exact .inl ⟨w, p, by simp⟩

theorem unit_append {u r : List PTok} (h : TopUnit u r) (hw : Whole (u ++ r)) (y : List PTok) : TopUnit u (r ++ y) := by
  cases h with
  | empty => obtain ⟨v, p, hv⟩ := hw; simp at hv
  | plain h => exact .plain h
  | escape => exact .escape
  | lastBackslash =>
    obtain ⟨v, p, hv⟩ := hw
    have := congrArg List.getLast? hv
    simp at this
  | nested h1 h2 => exact .nested h1 h2
  | brace h => exact .brace h
  | dollarParen h => exact .dollarParen h
  | dollar h1 h2 =>
    cases r with
    | nil =>
      obtain ⟨v, p, hv⟩ := hw
      have := congrArg List.getLast? hv
      simp at this
    | cons x r => exact .dollar h1 h2

theorem ex_takeBalanced : Ex (scan takeBalanced : Q _) (scan takeBalanced) := by
  refine ex_scan (fun l y e e' hw => ?_) fun e => ?_
  · rcases unit_or_unclosed l with ⟨u, rest, rfl, hu⟩ | ⟨er, hu⟩
    · refine .inl ⟨_, rest, takeBalanced_unit hu e, ?_, whole_suffix hw⟩
      have := takeBalanced_unit (unit_append hu hw y) e'
      simpa using this
    · exact .inr ⟨er, takeBalanced_unclosed hu e⟩
  · exact .inl ⟨_, takeBalanced_unit .empty e⟩
macro_rules | `(tactic| ex_lemma) => `(tactic| exact ex_takeBalanced)

/-! ## Arithmetic -/

theorem ex_arithVar : Ex (arithVar : Q _) arithVar := by
  unfold arithVar
  ex
macro_rules | `(tactic| ex_lemma) => `(tactic| exact ex_arithVar)

theorem ex_arithVarPost : Ex (arithVarPost : Q _) arithVarPost := by
  unfold arithVarPost
  ex
macro_rules | `(tactic| ex_lemma) => `(tactic| exact ex_arithVarPost)

/-- The recursive occurrences. -/
structure ArithEx (R R' : ArithRec AIter EmptyBuilder) : Prop where
  subst : Ex R.subst R'.subst
  assig : Ex R.assig R'.assig
  ternary : Ex R.ternary R'.ternary
  pow : Ex R.pow R'.pow
  unary : Ex R.unary R'.unary

macro_rules | `(tactic| ex_lemma) => `(tactic| exact ArithEx.subst (by assumption))
macro_rules | `(tactic| ex_lemma) => `(tactic| exact ArithEx.assig (by assumption))
macro_rules | `(tactic| ex_lemma) => `(tactic| exact ArithEx.ternary (by assumption))
macro_rules | `(tactic| ex_lemma) => `(tactic| exact ArithEx.pow (by assumption))
macro_rules | `(tactic| ex_lemma) => `(tactic| exact ArithEx.unary (by assumption))

theorem mpAssigOp_whole (n m : Nat) : ∀ (l y : List Token) (i j : AIter), l.getLast? = some .Newline → l.length ≤ n → l.length ≤ m →
    (mpAssigOp (I := AIter) n (AMultipeek.mk i l)).1 = (mpAssigOp (I := AIter) m (AMultipeek.mk j (l ++ y))).1 := by
  induction n generalizing m with
  | zero => intro l y i j h hn; cases l <;> simp at h hn
  | succ n ih =>
    intro l y i j h hn hm
    obtain ⟨m, rfl⟩ : ∃ k, m = k + 1 := ⟨m - 1, by cases l <;> simp at h hm; omega⟩
    rcases two h with rfl | ⟨t, u, r, rfl⟩
    · rfl
    · cases t <;> first
        | rfl
        | exact ih m (u :: r) y i j (by simpa using h) (by simpa using hn) (by simpa using hm)

theorem mpAssig_whole (n m : Nat) : ∀ (l y : List Token) (i j : AIter), l.getLast? = some .Newline → l.length ≤ n → l.length ≤ m →
    (mpAssig (I := AIter) n (AMultipeek.mk i l)).1 = (mpAssig (I := AIter) m (AMultipeek.mk j (l ++ y))).1 := by
  induction n generalizing m with
  | zero => intro l y i j h hn; cases l <;> simp at h hn
  | succ n ih =>
    intro l y i j h hn hm
    obtain ⟨m, rfl⟩ : ∃ k, m = k + 1 := ⟨m - 1, by cases l <;> simp at h hm; omega⟩
    rcases two h with rfl | ⟨t, u, r, rfl⟩
    · rfl
    · cases t <;> first
        | rfl
        | exact ih m (u :: r) y i j (by simpa using h) (by simpa using hn) (by simpa using hm)
        | exact mpAssigOp_whole n m (u :: r) y i j (by simpa using h) (by simpa using hn) (by simpa using hm)

theorem ex_mpAssig : Ex (fun s => lookahead (mpAssig (TokStream.len s.it + 2)) s : Q Bool)
    (fun s => lookahead (mpAssig (TokStream.len s.it + 2)) s) := by
  have key : ∀ n (s : S), (lookahead (mpAssig n) : Q Bool) s = (.ok (mpAssig (I := AIter) n (TokStream.mpNew s.it)).1, s) := by
    intro n s
    show (_, PSt.mk ((mpAssig (I := AIter) n (TokStream.mpNew s.it)).2 : AMultipeek).it s.b) = _
    rw [mpAssig_it]
    rfl
  refine .one (fun s1 s2 a s2' hl e => ?_) fun s hd => ?_
  · simp only [key] at e ⊢
    cases e
    refine .inl ⟨?_, hl⟩
    unfold Live at hl
    obtain ⟨⟨y, hy⟩, v, p, hv'⟩ := hl
    have e2 : s2.it.toks = s1.it.toks ++ y.map (·.2) := by simp [AIter.toks, hy]
    show (mpAssig (I := AIter) _ (AMultipeek.mk s1.it s1.it.toks)).1 = (mpAssig (I := AIter) _ (AMultipeek.mk s2.it s2.it.toks)).1
    rw [e2]
    refine mpAssig_whole _ _ _ _ _ _ (by simp [AIter.toks, hv']) ?_ ?_
    · simp [AIter.toks, TokStream.len]
    · simp [AIter.toks, TokStream.len, hy]; omega
  · simp only [key]
    exact hd
macro_rules | `(tactic| ex_lemma) => `(tactic| exact ex_mpAssig)

section
variable {R R' : ArithRec AIter EmptyBuilder} (hR : ArithEx R R')
include hR

theorem ex_arithPostIncr : Ex (arithPostIncr R) (arithPostIncr R') := by
  unfold arithPostIncr
  ex
macro_rules | `(tactic| ex_lemma) => `(tactic| exact ex_arithPostIncr (by assumption))

theorem ex_arithUnary : Ex (arithUnary R) (arithUnary R') := by
  unfold arithUnary
  ex
macro_rules | `(tactic| ex_lemma) => `(tactic| exact ex_arithUnary (by assumption))

theorem ex_arithPow : Ex (arithPow R) (arithPow R') := by
  unfold arithPow
  ex
macro_rules | `(tactic| ex_lemma) => `(tactic| exact ex_arithPow (by assumption))

omit hR in
theorem ex_arithBin {sub sub' : Q DefaultArithmetic} {op} (h : Ex sub sub') : Ex (arithBin sub op) (arithBin sub' op) := by
  unfold arithBin
  refine ex_bind h fun _ => ex_loop fun _ => ?_
  unfold arithBinBody
  ex
  exact ex_bind h fun _ => ex_pure

theorem ex_arithShift : Ex (arithShift R) (arithShift R') :=
  ex_arithBin (ex_arithBin (ex_arithBin (ex_arithPow hR)))
macro_rules | `(tactic| ex_lemma) => `(tactic| exact ex_arithShift (by assumption))

theorem ex_arithIneq : Ex (arithIneq R) (arithIneq R') := by
  unfold arithIneq
  ex
  refine ex_loop fun _ => ?_
  unfold arithIneqBody
  ex
macro_rules | `(tactic| ex_lemma) => `(tactic| exact ex_arithIneq (by assumption))

theorem ex_arithEq : Ex (arithEq R) (arithEq R') := by
  unfold arithEq
  ex
  refine ex_loop fun _ => ?_
  unfold arithEqBody
  ex

theorem ex_arithLogOr : Ex (arithLogOr R) (arithLogOr R') :=
  ex_arithBin (ex_arithBin (ex_arithBin (ex_arithBin (ex_arithBin (ex_arithEq hR)))))
macro_rules | `(tactic| ex_lemma) => `(tactic| exact ex_arithLogOr (by assumption))

theorem ex_arithTernary : Ex (arithTernary R) (arithTernary R') := by
  unfold arithTernary
  ex
macro_rules | `(tactic| ex_lemma) => `(tactic| exact ex_arithTernary (by assumption))

theorem ex_arithAssig : Ex (arithAssig R) (arithAssig R') := by
  unfold arithAssig
  refine ex_bind ex_skipWhitespace fun _ => ex_bind ex_mpAssig fun _ => ?_
  ex
macro_rules | `(tactic| ex_lemma) => `(tactic| exact ex_arithAssig (by assumption))

theorem ex_arithSubst : Ex (arithSubst R) (arithSubst R') := by
  unfold arithSubst
  refine ex_bind (ex_loop fun _ => ?_) fun _ => ?_
  · unfold arithSubstBody
    ex
  · ex

end

theorem arithEx_fix (n n' : Nat) : ArithEx (ArithRec.fix n) (ArithRec.fix n') := by
  induction n generalizing n' with
  | zero => exact ⟨ex_outOfFuel, ex_outOfFuel, ex_outOfFuel, ex_outOfFuel, ex_outOfFuel⟩
  | succ n ih =>
    cases n' with
    | zero =>
      have h := ih 0
      exact ⟨(ex_arithSubst h).alone, (ex_arithAssig h).alone, (ex_arithTernary h).alone, (ex_arithPow h).alone,
        (ex_arithUnary h).alone⟩
    | succ n' => exact ⟨ex_arithSubst (ih n'), ex_arithAssig (ih n'), ex_arithTernary (ih n'), ex_arithPow (ih n'), ex_arithUnary (ih n')⟩

theorem ex_arithmeticSubstitution : Ex (arithmeticSubstitution : Q _) arithmeticSubstitution :=
  ex_len (m1 := fun n => arithSubst (ArithRec.fix n)) (m2 := fun n => arithSubst (ArithRec.fix n)) (k := 1)
    fun n n' => ex_arithSubst (arithEx_fix n n')
macro_rules | `(tactic| ex_lemma) => `(tactic| exact ex_arithmeticSubstitution)

end Final
end Conch
