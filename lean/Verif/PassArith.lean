import Verif.PassLex
/-!
# The pass over all functions: arithmetic
-/
namespace Conch
open Spec

section
variable {B : Builder} {T : Theory B} {α : Type} {s : PSt AIter B}

/-- `m` is well behaved on streams of at most `n` tokens. -/
def Theory.Upto (T : Theory B) (n : Nat) (m : P AIter B α) : Prop :=
  ∀ s, T.Inv s → s.len ≤ n → T.Tr m s (fun _ _ => True)

/-- The recursive arithmetic functions are well behaved on fewer than `n` tokens. -/
structure ArithGood (T : Theory B) (n : Nat) (R : ArithRec AIter B) : Prop where
  subst : ∀ s, T.Inv s → s.len < n → T.Tr R.subst s (fun _ _ => True)
  assig : ∀ s, T.Inv s → s.len < n → T.Tr R.assig s (fun _ _ => True)
  ternary : ∀ s, T.Inv s → s.len < n → T.Tr R.ternary s (fun _ _ => True)
  pow : ∀ s, T.Inv s → s.len < n → T.Tr R.pow s (fun _ _ => True)
  unary : ∀ s, T.Inv s → s.len < n → T.Tr R.unary s (fun _ _ => True)

theorem tr_arithVar (hi : T.Inv s) : T.Tr arithVar s (fun _ s' => s'.len < s.len) := by
  unfold arithVar
  refine tr_bind (tr_skipWhitespace hi) ?_
  rintro _ s1 f1 -
  refine tr_bind (tr_eatMaybe f1.inv .Dollar) ?_
  rintro _ s2 f2 -
  rw [tr_peek]
  split
  · rename_i n h
    refine tr_bind (tr_next f2.inv) ?_
    rintro _ s3 f3 ⟨rfl, h3⟩
    rw [h] at h3 ⊢
    exact tr_pure f3.inv (Nat.lt_of_lt_of_le (h3 (by simp)) (f1.trans f2).len)
  · exact tr_unexpected f2.inv

theorem mpPostIncr_it (m : AMultipeek) : (mpPostIncr (I := AIter) m).2.it = m.it := by
  obtain ⟨it, l⟩ := m
  rcases l with _ | ⟨t, l⟩
  · rfl
  · cases t <;> rfl

theorem tr_arithVarPost (hi : T.Inv s) : T.Tr arithVarPost s (fun _ _ => True) := by
  unfold arithVarPost
  refine tr_bind (tr_arithVar hi) ?_
  rintro v s1 f1 -
  refine tr_bind (tr_skipWhitespace f1.inv) ?_
  rintro _ s2 f2 -
  rw [tr_lookahead (mpPostIncr_it _)]
  split
  · rw [tr_peek]
    split
    · refine tr_bind (tr_next f2.inv) ?_
      rintro _ s3 f3 -
      refine tr_bind (tr_eat f3.inv .Plus) ?_
      rintro _ s4 f4 -
      exact tr_pure f4.inv trivial
    · refine tr_bind (tr_next f2.inv) ?_
      rintro _ s3 f3 -
      refine tr_bind (tr_eat f3.inv .Dash) ?_
      rintro _ s4 f4 -
      exact tr_pure f4.inv trivial
    · exact tr_unexpected f2.inv
  · exact tr_pure f2.inv trivial

variable {n : Nat} {R : ArithRec AIter B} (hR : ArithGood T n R)
include hR

theorem tr_arithPostIncr : T.Upto n (arithPostIncr R) := by
  intro s hi hn
  unfold arithPostIncr
  refine tr_bind (tr_skipWhitespace hi) ?_
  rintro _ s1 f1 -
  rw [tr_peek]
  split
  · rename_i h
    refine tr_bind (tr_next f1.inv) ?_
    rintro _ s2 f2 ⟨rfl, h2⟩
    have := h2 (by simp [h])
    have := f1.len
    refine tr_bind (hR.subst s2 f2.inv (by omega)) ?_
    rintro x s3 f3 -
    refine tr_bind (tr_skipWhitespace f3.inv) ?_
    rintro _ s4 f4 -
    refine tr_bind (tr_eat f4.inv .ParenClose) ?_
    rintro _ s5 f5 -
    exact tr_pure f5.inv trivial
  · split
    · refine tr_bind (tr_next f1.inv) ?_
      rintro _ s2 f2 -
      exact tr_pure f2.inv trivial
    · exact tr_arithVarPost f1.inv
  · exact tr_arithVarPost f1.inv

theorem tr_arithUnary : T.Upto n (arithUnary R) := by
  intro s hi hn
  unfold arithUnary
  refine tr_bind (tr_skipWhitespace hi) ?_
  rintro _ s1 f1 -
  have hl1 := f1.len
  rw [tr_peek]
  have one : ∀ (mk : DefaultArithmetic → DefaultArithmetic), s1.it.peek ≠ none →
      T.Tr (do let _ ← next; let e ← R.unary; pure (mk e)) s1 (fun _ _ => True) := by
    intro mk h
    refine tr_bind (tr_next f1.inv) ?_
    rintro _ s2 f2 ⟨rfl, h2⟩
    have := h2 h
    refine tr_bind (hR.unary s2 f2.inv (by omega)) ?_
    rintro x s3 f3 -
    exact tr_pure f3.inv trivial
  split
  · rename_i h; exact one _ (by simp [h])
  · rename_i h; exact one _ (by simp [h])
  · rename_i h
    refine tr_bind (tr_next f1.inv) ?_
    rintro _ s2 f2 ⟨rfl, h2⟩
    have h2 := h2 (by simp [h])
    rw [tr_peek]
    split
    · refine tr_bind (tr_next f2.inv) ?_
      rintro _ s3 f3 -
      have := f3.len
      refine tr_bind (hR.unary s3 f3.inv (by omega)) ?_
      rintro x s4 f4 -
      exact tr_pure f4.inv trivial
    · refine tr_bind (tr_next f2.inv) ?_
      rintro _ s3 f3 -
      refine tr_bind (tr_arithVar f3.inv) ?_
      rintro x s4 f4 -
      exact tr_pure f4.inv trivial
    · refine tr_bind (hR.unary s2 f2.inv (by omega)) ?_
      rintro x s3 f3 -
      exact tr_pure f3.inv trivial
  · rename_i h
    refine tr_bind (tr_next f1.inv) ?_
    rintro _ s2 f2 ⟨rfl, h2⟩
    have h2 := h2 (by simp [h])
    rw [tr_peek]
    split
    · refine tr_bind (tr_next f2.inv) ?_
      rintro _ s3 f3 -
      have := f3.len
      refine tr_bind (hR.unary s3 f3.inv (by omega)) ?_
      rintro x s4 f4 -
      exact tr_pure f4.inv trivial
    · refine tr_bind (tr_next f2.inv) ?_
      rintro _ s3 f3 -
      refine tr_bind (tr_arithVar f3.inv) ?_
      rintro x s4 f4 -
      exact tr_pure f4.inv trivial
    · refine tr_bind (hR.unary s2 f2.inv (by omega)) ?_
      rintro x s3 f3 -
      exact tr_pure f3.inv trivial
  · exact tr_arithPostIncr hR s1 f1.inv (by omega)

omit hR in
theorem mpDoubleStar_it (m : AMultipeek) : (mpDoubleStar (I := AIter) m).2.it = m.it := by
  obtain ⟨it, l⟩ := m
  unfold mpDoubleStar
  simp only [TokStream.mpNext]
  split <;> rfl

theorem tr_arithPow : T.Upto n (arithPow R) := by
  intro s hi hn
  unfold arithPow
  refine tr_bind (tr_arithUnary hR s hi hn) ?_
  rintro x s1 f1 -
  refine tr_bind (tr_skipWhitespace f1.inv) ?_
  rintro _ s2 f2 -
  rw [tr_lookahead (mpDoubleStar_it _)]
  split
  · refine tr_bind (tr_eat f2.inv _) ?_
    rintro _ s3 f3 h3
    refine tr_bind (tr_eat f3.inv _) ?_
    rintro _ s4 f4 h4
    have := (f1.trans f2).len
    refine tr_bind (hR.pow s4 f4.inv (by omega)) ?_
    rintro y s5 f5 -
    exact tr_pure f5.inv trivial
  · exact tr_pure f2.inv trivial

omit hR in
theorem tr_arithBin {sub : P AIter B DefaultArithmetic} (hs : T.Upto n sub) (op) :
    T.Upto n (arithBin sub op) := by
  intro s hi hn
  unfold arithBin
  refine tr_bind (hs s hi hn) ?_
  rintro x s1 f1 -
  have hl1 := f1.len
  refine tr_loop f1.inv (fun _ _ => True) trivial ?_
  rintro x s2 f2 -
  unfold arithBinBody
  refine tr_bind (tr_skipWhitespace f2.inv) ?_
  rintro _ s3 f3 -
  rw [tr_peek]
  split
  · rename_i t h
    split
    · refine tr_bind (tr_next f3.inv) ?_
      rintro _ s4 f4 ⟨rfl, h4⟩
      have := h4 (by simp [h])
      have := f2.len
      have := f3.len
      refine tr_bind (hs s4 f4.inv (by omega)) ?_
      rintro y s5 f5 -
      have := f5.len
      exact tr_pure f5.inv ⟨trivial, by omega⟩
    · exact tr_pure f3.inv trivial
  · exact tr_pure f3.inv trivial

theorem tr_arithMult : T.Upto n (arithMult R) := tr_arithBin (tr_arithPow hR) multOp
theorem tr_arithAdd : T.Upto n (arithAdd R) := tr_arithBin (tr_arithMult hR) addOp
theorem tr_arithShift : T.Upto n (arithShift R) := tr_arithBin (tr_arithAdd hR) shiftOp

theorem tr_arithIneq : T.Upto n (arithIneq R) := by
  intro s hi hn
  unfold arithIneq
  refine tr_bind (tr_arithShift hR s hi hn) ?_
  rintro x s1 f1 -
  have hl1 := f1.len
  refine tr_loop f1.inv (fun _ _ => True) trivial ?_
  rintro x s2 f2 -
  have hl2 := f2.len
  unfold arithIneqBody
  refine tr_bind (tr_skipWhitespace f2.inv) ?_
  rintro _ s3 f3 -
  have hl3 := f3.len
  have one : ∀ (mk : Bool → DefaultArithmetic → DefaultArithmetic), s3.it.peek ≠ none →
      T.Tr (do
        let _ ← next
        let eq ← eatMaybe .Equals
        let rhs ← arithShift R
        pure (.cont (mk eq rhs)) : P AIter B (Step DefaultArithmetic DefaultArithmetic)) s3
        (LoopQ (fun _ _ => True) (fun _ _ => True) s2) := by
    intro mk h
    refine tr_bind (tr_next f3.inv) ?_
    rintro _ s4 f4 ⟨rfl, h4⟩
    have := h4 h
    refine tr_bind (tr_eatMaybe f4.inv _) ?_
    rintro eq s5 f5 -
    have := f5.len
    refine tr_bind (tr_arithShift hR s5 f5.inv (by omega)) ?_
    rintro y s6 f6 -
    have := f6.len
    exact tr_pure f6.inv ⟨trivial, by omega⟩
  rw [tr_peek]
  split
  · rename_i h
    exact (one (fun eq rhs => if eq then .LessEq x rhs else .Less x rhs) (by simp [h]))
  · rename_i h
    exact (one (fun eq rhs => if eq then .GreatEq x rhs else .Great x rhs) (by simp [h]))
  · exact tr_pure f3.inv trivial

theorem tr_arithEq : T.Upto n (arithEq R) := by
  intro s hi hn
  unfold arithEq
  refine tr_bind (tr_arithIneq hR s hi hn) ?_
  rintro x s1 f1 -
  have hl1 := f1.len
  refine tr_loop f1.inv (fun _ _ => True) trivial ?_
  rintro x s2 f2 -
  have hl2 := f2.len
  unfold arithEqBody
  refine tr_bind (tr_skipWhitespace f2.inv) ?_
  rintro _ s3 f3 -
  have hl3 := f3.len
  have one : ∀ (mk : DefaultArithmetic → DefaultArithmetic), s3.it.peek ≠ none →
      T.Tr (do
        let _ ← next
        eat .Equals
        let rhs ← arithIneq R
        pure (.cont (mk rhs)) : P AIter B (Step DefaultArithmetic DefaultArithmetic)) s3
        (LoopQ (fun _ _ => True) (fun _ _ => True) s2) := by
    intro mk h
    refine tr_bind (tr_next f3.inv) ?_
    rintro _ s4 f4 ⟨rfl, h4⟩
    have := h4 h
    refine tr_bind (tr_eat f4.inv _) ?_
    rintro _ s5 f5 -
    have := f5.len
    refine tr_bind (tr_arithIneq hR s5 f5.inv (by omega)) ?_
    rintro y s6 f6 -
    have := f6.len
    exact tr_pure f6.inv ⟨trivial, by omega⟩
  rw [tr_peek]
  split
  · rename_i h; exact one _ (by simp [h])
  · rename_i h; exact one _ (by simp [h])
  · exact tr_pure f3.inv trivial

theorem tr_arithBitAnd : T.Upto n (arithBitAnd R) := tr_arithBin (tr_arithEq hR) bitAndOp
theorem tr_arithBitXor : T.Upto n (arithBitXor R) := tr_arithBin (tr_arithBitAnd hR) bitXorOp
theorem tr_arithBitOr : T.Upto n (arithBitOr R) := tr_arithBin (tr_arithBitXor hR) bitOrOp
theorem tr_arithLogAnd : T.Upto n (arithLogAnd R) := tr_arithBin (tr_arithBitOr hR) logAndOp
theorem tr_arithLogOr : T.Upto n (arithLogOr R) := tr_arithBin (tr_arithLogAnd hR) logOrOp

theorem tr_arithTernary : T.Upto n (arithTernary R) := by
  intro s hi hn
  unfold arithTernary
  refine tr_bind (tr_arithLogOr hR s hi hn) ?_
  rintro x s1 f1 -
  refine tr_bind (tr_skipWhitespace f1.inv) ?_
  rintro _ s2 f2 -
  have hl := (f1.trans f2).len
  refine tr_bind (tr_eatMaybe f2.inv _) ?_
  rintro q s3 f3 ⟨h3, -⟩
  split
  · rename_i h
    have := (h3 h).2
    refine tr_bind (hR.ternary s3 f3.inv (by omega)) ?_
    rintro y s4 f4 -
    refine tr_bind (tr_skipWhitespace f4.inv) ?_
    rintro _ s5 f5 -
    refine tr_bind (tr_eat f5.inv _) ?_
    rintro _ s6 f6 h6
    have := (f4.trans f5).len
    refine tr_bind (hR.ternary s6 f6.inv (by omega)) ?_
    rintro z s7 f7 -
    exact tr_pure f7.inv trivial
  · exact tr_pure f3.inv trivial

omit hR in
theorem mpAssigOp_it (k : Nat) (m : AMultipeek) : (mpAssigOp (I := AIter) k m).2.it = m.it := by
  induction k generalizing m with
  | zero => rfl
  | succ k ih =>
    unfold mpAssigOp
    simp only [TokStream.mpNext]
    split
    · rename_i t m' h
      cases h' : m.left.head? with
      | none => rw [h'] at h; simp at h
      | some t' =>
        rw [h'] at h
        simp at h
        obtain ⟨rfl, rfl⟩ := h
        split
        · exact ih _
        · split
          · rfl
          · split <;> rfl
    · rename_i h; simp at h; rw [← h.2]

omit hR in
theorem mpAssig_it (k : Nat) (m : AMultipeek) : (mpAssig (I := AIter) k m).2.it = m.it := by
  induction k generalizing m with
  | zero => rfl
  | succ k ih =>
    unfold mpAssig
    obtain ⟨it, l⟩ := m
    rcases l with _ | ⟨t, l⟩
    · rfl
    · cases t <;> first | rfl | exact ih _ | exact mpAssigOp_it _ _

omit hR in
theorem mpAssigOp_val (k : Nat) (it : AIter) (l : List PTok)
    (h : (mpAssigOp (I := AIter) k (AMultipeek.mk it (l.map (·.2)))).1 = true) :
    ∃ bs p op r, l = bs ++ (p, op) :: r ∧ Blanks bs ∧
      ((op.isAssigOp = true ∧ r.head?.map (·.2) = some .Equals) ∨
        (op = .Equals ∧ r.head?.map (·.2) ≠ some .Equals)) := by
  induction k generalizing l with
  | zero => simp [mpAssigOp] at h
  | succ k ih =>
    unfold mpAssigOp at h
    simp only [TokStream.mpNext] at h
    rcases l with _ | ⟨⟨p, t⟩, l⟩
    · simp at h
    · simp only [List.map_cons, List.head?_cons, List.tail_cons] at h
      split at h
      · rename_i hw
        obtain ⟨bs, q, op, r, rfl, hb, h2⟩ := ih _ h
        cases t <;> simp [Token.isWs] at hw
        exact ⟨_, q, op, r, rfl, .ws hb, h2⟩
      · split at h
        · rename_i ho
          exact ⟨[], p, t, l, rfl, .nil, .inl ⟨ho, by simpa using h⟩⟩
        · split at h
          · rename_i ho
            exact ⟨[], p, t, l, rfl, .nil, .inr ⟨ho, by simpa using h⟩⟩
          · simp at h

omit hR in
theorem mpAssig_val (k : Nat) (it : AIter) (l : List PTok)
    (h : (mpAssig (I := AIter) k (AMultipeek.mk it (l.map (·.2)))).1 = true) :
    ∃ ds p n l', l = ds ++ (p, .Name n) :: l' ∧ (∀ d ∈ ds, d.2 = .Dollar) ∧
      ∃ bs p op r, l' = bs ++ (p, op) :: r ∧ Blanks bs ∧
      ((op.isAssigOp = true ∧ r.head?.map (·.2) = some .Equals) ∨
        (op = .Equals ∧ r.head?.map (·.2) ≠ some .Equals)) := by
  induction k generalizing l with
  | zero => simp [mpAssig] at h
  | succ k ih =>
    unfold mpAssig at h
    rcases l with _ | ⟨⟨p, t⟩, l⟩
    · simp [TokStream.mpNext] at h
    · by_cases h1 : t = .Dollar
      · subst h1
        obtain ⟨ds, q, n, l', rfl, h2, h3⟩ := ih _ h
        exact ⟨(p, .Dollar) :: ds, q, n, l', rfl, by simpa using h2, h3⟩
      · by_cases h2 : ∃ n, t = .Name n
        · obtain ⟨n, rfl⟩ := h2
          exact ⟨[], p, n, l, rfl, by simp, mpAssigOp_val _ _ _ h⟩
        · exfalso
          cases t <;> simp [TokStream.mpNext] at h h1 h2

omit hR in
theorem arithVar_eq {bs l : List PTok} {p : SourcePos} {v : Str} {e : SourcePos} {b : B.State}
    (hb : Blanks bs) :
    arithVar (st (bs ++ (p, .Name v) :: l) e b) = (.ok v, st l e b) := by
  unfold arithVar
  rw [bind_ok (skipWhitespace_eq hb (noBlank_cons rfl (by simp))), eatMaybe_bind_no _ (by simp)]
  rfl

omit hR in
theorem arithVar_dollar_eq {bs l : List PTok} {p q : SourcePos} {v : Str} {e : SourcePos}
    {b : B.State} (hb : Blanks bs) :
    arithVar (st (bs ++ (p, .Dollar) :: (q, .Name v) :: l) e b) = (.ok v, st l e b) := by
  unfold arithVar
  rw [bind_ok (skipWhitespace_eq hb (noBlank_cons rfl (by simp))), eatMaybe_bind_yes]
  rfl

omit hR in
theorem tr_arithVar_ne {p q : SourcePos} {t : Token} {l : List PTok} {e : SourcePos} {b : B.State}
    (hi : T.Inv (st ((p, .Dollar) :: (q, t) :: l) e b)) (ht : t.isName = false) :
    T.Tr arithVar (st ((p, .Dollar) :: (q, t) :: l) e b) (fun _ _ => False) := by
  have hi2 : T.Inv (st ((q, t) :: l) e b) := ⟨T.next hi.j, hi.k⟩
  refine tr_congr (m' := unexpected) (fr_suffix (xs := [(p, .Dollar)]) hi) ?_ (tr_unexpected hi2)
  unfold arithVar
  rw [bind_ok (skipWhitespace_noop (noBlank_cons rfl (by simp))), eatMaybe_bind_yes, peek_bind]
  cases t <;> first | rfl | simp [Token.isName] at ht

omit hR in
theorem Token.isAssigOp_noBlank {op : Token} (h : op.isAssigOp = true ∨ op = .Equals) :
    op.isWs = false ∧ op ≠ .Backslash := by
  cases op <;> simp_all [Token.isAssigOp, Token.isWs]

omit hR in
theorem assigValue_isSome {op : Token} (h : op.isAssigOp = true) (v : Str) (x) :
    ∃ e, assigValue v x op = some e := by
  cases op <;> simp_all [Token.isAssigOp, assigValue]

/-- The part of `arith_assig` after the look-ahead found an assignment. -/
theorem tr_assig_tail {bs r : List PTok} {p : SourcePos} {op : Token} {e : SourcePos} {b : B.State}
    {v : Str} (hi : T.Inv (st (bs ++ (p, op) :: r) e b)) (hb : Blanks bs) (hl : r.length + 1 ≤ n)
    (hop : op.isAssigOp = true ∨ op = .Equals) :
    T.Tr (do
      skipWhitespace
      match ← next with
      | some op =>
        if op.isAssigOp then
          eat .Equals
          let value ← R.assig
          match assigValue v value op with
          | some e => pure (.Assign v e)
          | none => panicAt 2622
        else if op = .Equals then
          let value ← R.assig
          pure (.Assign v value)
        else panicAt 2606
      | none => panicAt 2606 : P AIter B DefaultArithmetic) (st (bs ++ (p, op) :: r) e b)
      (fun _ _ => True) := by
  obtain ⟨h1, h2⟩ := Token.isAssigOp_noBlank hop
  refine tr_bind (tr_of_eq (Q := fun _ s' => s' = st ((p, op) :: r) e b)
    (skipWhitespace_eq hb (noBlank_cons h1 h2)) (fr_suffix hi) rfl) ?_
  rintro _ _ f1 rfl
  refine tr_bind (tr_next f1.inv) ?_
  rintro _ s2 f2 ⟨rfl, h3⟩
  have hl2 := h3 (by simp [AIter.peek])
  have : (st ((p, op) :: r) e b : PSt AIter B).len = r.length + 1 := rfl
  have hp : (st ((p, op) :: r) e b : PSt AIter B).it.peek = some op := rfl
  rw [hp]
  simp only
  split
  · rename_i ho
    refine tr_bind (tr_eat f2.inv _) ?_
    rintro _ s3 f3 h3
    refine tr_bind (hR.assig s3 f3.inv (by omega)) ?_
    rintro x s4 f4 -
    obtain ⟨y, hy⟩ := assigValue_isSome ho v x
    rw [hy]
    exact tr_pure f4.inv trivial
  · rename_i ho
    have ho' : op = .Equals := by rcases hop with h | h; exact absurd h ho; exact h
    rw [if_pos ho']
    refine tr_bind (hR.assig s2 f2.inv (by omega)) ?_
    rintro x s4 f4 -
    exact tr_pure f4.inv trivial

theorem tr_arithAssig : T.Upto n (arithAssig R) := by
  intro s hi hn
  unfold arithAssig
  refine tr_bind (tr_skipWhitespace hi) ?_
  rintro _ s1 f1 -
  have hl1 := f1.len
  refine tr_bind (Q1 := fun a s' => s' = s1 ∧
    a = (mpAssig (I := AIter) (s1.it.rest.length + 2) (AMultipeek.mk s1.it s1.it.toks)).1) ?_ ?_
  · refine tr_of_eq (s' := s1) ?_ f1.inv.refl ⟨rfl, rfl⟩
    show (_, PSt.mk (mpAssig (I := AIter) (s1.it.rest.length + 2)
      (AMultipeek.mk s1.it s1.it.toks)).2.it _) = _
    rw [mpAssig_it]
    rfl
  rintro a s1' f2 ⟨hs1, ha⟩
  subst hs1
  split
  · rename_i h
    rw [h] at ha
    obtain ⟨⟨l, e⟩, b⟩ := s1'
    obtain ⟨ds, p, v, l', rfl, hd, bs, q, op, r, rfl, hb, hop⟩ := mpAssig_val _ _ _ ha.symm
    have hop : op.isAssigOp = true ∨ op = .Equals := hop.imp And.left And.left
    have hln : (ds ++ (p, Token.Name v) :: (bs ++ (q, op) :: r)).length ≤ n :=
      Nat.le_trans hl1 hn
    simp at hln
    match ds, hd with
    | [], _ =>
      refine tr_bind (tr_of_eq (Q := fun x s' => x = v ∧ s' = st (bs ++ (q, op) :: r) e b)
        (arithVar_eq (bs := []) .nil) (fr_suffix (xs := [(p, .Name v)]) f1.inv) ⟨rfl, rfl⟩) ?_
      rintro _ _ f3 ⟨rfl, rfl⟩
      exact tr_assig_tail hR f3.inv hb (by omega) hop
    | [(d, t)], hd =>
      have : t = .Dollar := hd (d, t) (by simp)
      subst this
      refine tr_bind (tr_of_eq (Q := fun x s' => x = v ∧ s' = st (bs ++ (q, op) :: r) e b)
        (arithVar_dollar_eq (bs := []) .nil)
        (fr_suffix (xs := [(d, .Dollar), (p, .Name v)]) f1.inv) ⟨rfl, rfl⟩) ?_
      rintro _ _ f3 ⟨rfl, rfl⟩
      exact tr_assig_tail hR f3.inv hb (by omega) hop
    | (d, t) :: (d', t') :: ds, hd =>
      have : t = .Dollar := hd (d, t) (by simp)
      subst this
      have : t' = .Dollar := hd (d', t') (by simp)
      subst this
      refine tr_bind (tr_arithVar_ne f1.inv rfl) ?_
      rintro _ _ _ h
      exact h.elim
  · exact tr_arithTernary hR _ f1.inv (by omega)

theorem tr_arithSubst : T.Upto n (arithSubst R) := by
  intro s hi hn
  unfold arithSubst
  refine tr_bind (Q1 := fun _ _ => True) (tr_loop hi (fun _ _ => True) trivial ?_) ?_
  · rintro x s1 f1 -
    unfold arithSubstBody
    refine tr_bind (tr_skipWhitespace f1.inv) ?_
    rintro _ s2 f2 -
    have := (f1.trans f2).len
    refine tr_bind (tr_arithAssig hR s2 f2.inv (by omega)) ?_
    rintro y s3 f3 -
    refine tr_bind (tr_eatMaybe f3.inv _) ?_
    rintro c s4 f4 ⟨h4, -⟩
    split
    · rename_i h
      have := (h4 h).2
      have := (f2.trans f3).len
      exact tr_pure f4.inv ⟨trivial, by omega⟩
    · exact tr_pure f4.inv trivial
  · rintro es s1 f1 -
    split
    · exact tr_pure f1.inv trivial
    · exact tr_pure f1.inv trivial

omit hR in
theorem arithGood_fix (n : Nat) : ArithGood T n (ArithRec.fix n) := by
  induction n with
  | zero => constructor <;> (intro s _ h; omega)
  | succ n ih =>
    constructor
    · intro s hi h; exact tr_arithSubst ih s hi (by omega)
    · intro s hi h; exact tr_arithAssig ih s hi (by omega)
    · intro s hi h; exact tr_arithTernary ih s hi (by omega)
    · intro s hi h; exact tr_arithPow ih s hi (by omega)
    · intro s hi h; exact tr_arithUnary ih s hi (by omega)

omit hR in
theorem tr_arithmeticSubstitution (hi : T.Inv s) :
    T.Tr arithmeticSubstitution s (fun _ _ => True) := by
  refine tr_congr (m' := arithSubst (ArithRec.fix (s.len + 1))) hi.refl rfl ?_
  exact tr_arithSubst (arithGood_fix _) s hi (Nat.le_succ _)

end
end Conch
