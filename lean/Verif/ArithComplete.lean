import Verif.ArithSound
/-!
# C22, second half: every derivable expression is parsed to its tree
-/
namespace Conch
open Spec

/-! ## The look-ahead for assignments says no -/

/-- The first token after the blanks: a variable not followed by an assignment operator, or no
variable. -/
def HeadForm (u : List PTok) : Prop :=
  ∃ bs v, u = bs ++ v ∧ Blanks bs ∧
    ((∃ vs x w, v = vs ++ w ∧ VarRef vs x ∧ ∀ t, ¬ AssigCont t → ¬ AssigCont (w ++ t)) ∨
     (∃ p t w, v = (p, t) :: w ∧ starter t = true ∧ t.isWs = false ∧ t ≠ .Backslash ∧ t ≠ .Dollar ∧
       ∀ x, t ≠ .Name x))

theorem HeadForm.append {u : List PTok} (h : HeadForm u) {w : List PTok}
    (hw : ∀ t, ¬ AssigCont t → ¬ AssigCont (w ++ t)) : HeadForm (u ++ w) := by
  obtain ⟨bs, v, rfl, hb, ⟨vs, x, w', rfl, hv, h⟩ | ⟨p, t, w', rfl, h⟩⟩ := h
  · refine ⟨bs, vs ++ (w' ++ w), by simp, hb, .inl ⟨vs, x, _, rfl, hv, ?_⟩⟩
    intro t ht
    rw [List.append_assoc]
    exact h _ (hw _ ht)
  · exact ⟨bs, (p, t) :: (w' ++ w), by simp, hb, .inr ⟨p, t, _, rfl, h⟩⟩

theorem headForm_tok {bs : List PTok} {p : SourcePos} {t : Token} {w : List PTok} (hb : Blanks bs)
    (h : starter t = true ∧ t.isWs = false ∧ t ≠ .Backslash ∧ t ≠ .Dollar ∧ ∀ x, t ≠ .Name x) :
    HeadForm (bs ++ (p, t) :: w) := ⟨bs, _, rfl, hb, .inr ⟨p, t, w, rfl, h⟩⟩

/-- Blanks do not matter much to `AssigCont`. -/
theorem assigCont_blanks {bs r : List PTok} (hb : Blanks bs) (h : AssigCont (bs ++ r)) :
    AssigCont r := by
  induction hb with
  | nil => exact h
  | @ws p w bs _ ih =>
    apply ih
    obtain ⟨ws, q, t, r', heq, h1, h2⟩ := h
    rcases ws with _ | ⟨y, ws⟩
    · cases heq
      rcases h2 with ⟨h2, _⟩ | ⟨h2, _⟩
      · simp [Token.isAssigOp] at h2
      · cases h2
    · rw [List.cons_append, List.cons_append, List.cons.injEq] at heq
      exact ⟨ws, q, t, r', heq.2, fun x hx => h1 x (by simp [hx]), h2⟩
  | @escaped p q bs _ ih =>
    exfalso
    obtain ⟨ws, q, t, r', heq, h1, h2⟩ := h
    rcases ws with _ | ⟨y, ws⟩
    · cases heq
      rcases h2 with ⟨h2, _⟩ | ⟨h2, _⟩
      · simp [Token.isAssigOp] at h2
      · cases h2
    · rw [List.cons_append, List.cons_append, List.cons_append, List.cons.injEq] at heq
      obtain ⟨w, hw⟩ := h1 y (by simp)
      rw [← heq.1] at hw
      cases hw

theorem assigCont_cons {p : SourcePos} {t : Token} {r : List PTok} (ht : t.isWs = false) :
    AssigCont ((p, t) :: r) ↔ (t.isAssigOp = true ∧ r.head?.map (·.2) = some .Equals) ∨
     (t = .Equals ∧ r.head?.map (·.2) ≠ some .Equals) := by
  constructor
  · rintro ⟨ws, q, t', r', heq, h1, h2⟩
    rcases ws with _ | ⟨y, ws⟩
    · cases heq; exact h2
    · cases heq
      obtain ⟨w, hw⟩ := h1 _ (List.mem_cons_self ..)
      simp only at hw
      subst hw
      simp [Token.isWs] at ht
  · intro h
    exact ⟨[], p, t, r, rfl, by simp, h⟩

theorem not_assigCont_nil : ¬ AssigCont [] := by
  rintro ⟨ws, q, t, r', heq, h1, h2⟩
  simp at heq

/-- An operator with its right operand does not look like an assignment. -/
theorem not_assigCont_op {sep : Signs} {lvl : Level} {bs op v : List PTok} {mk : BinMk}
    {l' : Level} {c : DefaultArithmetic}
    (hb : Blanks bs) (ho : (op.map (·.2), mk) ∈ binOps lvl) (hv : Expr sep l' v c) (t : List PTok) :
    ¬ AssigCont (bs ++ op ++ v ++ t) := by
  intro h
  rw [List.append_assoc, List.append_assoc] at h
  have h := assigCont_blanks hb h
  have hv := expr_starts hv
  have h1 := starts_head hv t (t := .Equals) rfl
  rcases op with _ | ⟨⟨p, o⟩, op⟩
  · cases lvl <;> simp [binOps] at ho
  · cases lvl <;> simp [binOps] at ho
    all_goals
      rcases op with _ | ⟨⟨q, o'⟩, op⟩ <;> simp at ho
    all_goals
      rw [List.cons_append, assigCont_cons (by grind [Token.isWs])] at h
      simp [Token.isAssigOp] at h h1
      grind

theorem expr_headForm {sep : Signs} {lvl u} {a : DefaultArithmetic}
    (h : Expr sep lvl u a) : lrank .ternary ≤ lrank lvl → HeadForm u := by
  refine Expr.rec (motive_1 := fun lvl v a _ => lrank .ternary ≤ lrank lvl → HeadForm v)
    (motive_2 := fun v as _ => True)
    ?_ ?_ ?_ ?_ ?_ ?_ ?_ ?_ ?_ ?_ ?_ ?_ ?_ ?_ ?_ ?_ ?_ ?_ ?_ ?_ ?_ ?_ h
  · intro lvl u a h1 _ ih hl; exact ih (Nat.le_trans hl (lrank_tighter lvl))
  · intro u as _ h2 ih hl; simp [lrank] at hl
  · intro bs' vs x ws p u a h1 h2 h3 h4 _ hl; simp [lrank] at hl
  · intro bs' vs x ws p q op mk u a h1 h2 h3 h4 h5 _ hl; simp [lrank] at hl
  · intro u a bs1 p v b bs2 q w c _ h2 h3 h4 h5 ih _ _ hl
    have := (ih (by simp [lrank])).append (w := bs1 ++ (p, .Question) :: v ++ bs2 ++ (q, .Colon) :: w) ?_
    · simpa only [List.append_assoc, List.cons_append] using this
    · intro t _ hc
      simp only [List.append_assoc, List.cons_append] at hc
      have := assigCont_blanks h2 hc
      rw [assigCont_cons rfl] at this
      simp [Token.isAssigOp] at this
  · intro lvl u a bs1 op mk v b h1 _ h3 h4 h5 ih _ hl
    have := (ih hl).append (w := bs1 ++ op ++ v) (fun t _ => not_assigCont_op h3 h1 h4 t)
    simpa only [List.append_assoc] using this
  · intro u a bs1 p q v b _ h2 h3 ih _ hl
    have := (ih (by simp [lrank])).append (w := bs1 ++ (p, .Star) :: (q, .Star) :: v) ?_
    · simpa only [List.append_assoc] using this
    · intro t _ hc
      simp only [List.append_assoc, List.cons_append] at hc
      have := assigCont_blanks h2 hc
      rw [assigCont_cons rfl] at this
      simp at this
  · intro bs1 p u a h1 h2 _ _
    exact headForm_tok h1 (by simp [starter, Token.isWs])
  · intro bs1 p u a h1 h2 _ _
    exact headForm_tok h1 (by simp [starter, Token.isWs])
  · intro bs1 p u a h1 h2 h3 _ _
    exact headForm_tok h1 (by simp [starter, Token.isWs])
  · intro bs1 p u a h1 h2 h3 _ _
    exact headForm_tok h1 (by simp [starter, Token.isWs])
  · intro bs1 p q u a h1 h2 _ _
    exact headForm_tok h1 (by simp [starter, Token.isWs])
  · intro bs1 p q u a h1 h2 _ _
    exact headForm_tok h1 (by simp [starter, Token.isWs])
  · intro bs1 p q bs2 vs x h1 h2 h3 _
    have := headForm_tok (bs := bs1) (p := p) (t := .Plus) (w := (q, .Plus) :: bs2 ++ vs) h1
      (by simp [starter, Token.isWs])
    simpa only [List.append_assoc, List.cons_append] using this
  · intro bs1 p q bs2 vs x h1 h2 h3 _
    have := headForm_tok (bs := bs1) (p := p) (t := .Dash) (w := (q, .Dash) :: bs2 ++ vs) h1
      (by simp [starter, Token.isWs])
    simpa only [List.append_assoc, List.cons_append] using this
  · intro bs1 p q bs2 vs x h1 h2 h3 _
    refine ⟨bs1, vs ++ (bs2 ++ [(p, .Plus), (q, .Plus)]), by simp, h1, .inl ⟨vs, x, _, rfl, h2, ?_⟩⟩
    intro t _ hc
    rw [List.append_assoc] at hc
    have := assigCont_blanks h3 hc
    rw [List.cons_append, assigCont_cons rfl] at this
    simp at this
  · intro bs1 p q bs2 vs x h1 h2 h3 _
    refine ⟨bs1, vs ++ (bs2 ++ [(p, .Dash), (q, .Dash)]), by simp, h1, .inl ⟨vs, x, _, rfl, h2, ?_⟩⟩
    intro t _ hc
    rw [List.append_assoc] at hc
    have := assigCont_blanks h3 hc
    rw [List.cons_append, assigCont_cons rfl] at this
    simp at this
  · intro bs1 vs x h1 h2 _
    exact ⟨bs1, vs ++ [], by simp, h1, .inl ⟨vs, x, [], rfl, h2, fun t h => h⟩⟩
  · intro bs1 p s n h1 h2 h3 _
    exact headForm_tok h1 (by simp [starter, Token.isWs])
  · intro bs1 p u a bs2 q h1 h2 h3 _ _
    have := headForm_tok (bs := bs1) (p := p) (t := .ParenOpen) (w := u ++ bs2 ++ [(q, .ParenClose)])
      h1 (by simp [starter, Token.isWs])
    simpa only [List.append_assoc, List.cons_append] using this
  · intro _ _ _ _; trivial
  · intro _ _ _ _ _ _ _ _ _ _ _; trivial

theorem mpAssig_false {n : Nat} {it : AIter} {v t : List PTok}
    (hv : (∃ vs x w, v = vs ++ w ∧ VarRef vs x ∧ ∀ t, ¬ AssigCont t → ¬ AssigCont (w ++ t)) ∨
     (∃ p t w, v = (p, t) :: w ∧ starter t = true ∧ t.isWs = false ∧ t ≠ .Backslash ∧ t ≠ .Dollar ∧
       ∀ x, t ≠ .Name x)) (ht : ¬ AssigCont t) :
    (mpAssig (I := AIter) n (AMultipeek.mk it ((v ++ t).map (·.2)))).1 = false := by
  rcases hv with ⟨vs, x, w, rfl, h1, h2⟩ | ⟨p, t', w, rfl, _, h1, h2, h3, h4⟩
  · rw [List.append_assoc]
    rw [Bool.eq_false_iff]
    intro h
    exact h2 t ht (mpAssig_var h1 h)
  · cases n with
    | zero => rfl
    | succ n =>
      unfold mpAssig
      cases t' <;> first | rfl | exact absurd rfl h3 | exact absurd rfl (h4 _)

theorem not_assigCont_follow {ev : Prop} {bs r : List PTok} (hb : Blanks bs) (hr : NoBlank r)
    (h : Follow .ternary ev r) : ¬ AssigCont (bs ++ r) := by
  intro hc
  have hc := assigCont_blanks hb hc
  rcases r with _ | ⟨⟨p, t⟩, r⟩
  · exact not_assigCont_nil hc
  · have hws : t.isWs = false := by
      cases t <;> first | rfl | exact absurd rfl (hr.1 _ _ _)
    rw [assigCont_cons hws] at hc
    have := h.1 _ _ rfl
    rcases hc with ⟨hc, _⟩ | ⟨rfl, _⟩
    · cases t <;> simp [Token.isAssigOp] at hc <;> simp [orank, lrank] at this
    · simp [orank, lrank] at this

theorem mpAssig_yes {n : Nat} {it : AIter} {vs : List PTok} {x : Str} (hv : VarRef vs x)
    {r : List PTok} (hr : AssigCont r) (hn : r.length + 2 ≤ n) :
    (mpAssig (I := AIter) n (AMultipeek.mk it ((vs ++ r).map (·.2)))).1 = true := by
  have key : ∀ n, r.length ≤ n →
      (mpAssigOp (I := AIter) n (AMultipeek.mk it (r.map (·.2)))).1 = true := by
    obtain ⟨ws, p, t, r', rfl, h1, h2⟩ := hr
    clear hn
    induction ws with
    | nil =>
      intro n hn
      obtain ⟨n, rfl⟩ : ∃ m, n = m + 1 := ⟨n - 1, by simp at hn; omega⟩
      unfold mpAssigOp
      simp only [TokStream.mpNext, List.map_cons, List.head?_cons, List.tail_cons, List.nil_append]
      have ht : t.isWs = false := by
        rcases h2 with ⟨h2, _⟩ | ⟨rfl, _⟩
        · cases t <;> simp [Token.isAssigOp] at h2 <;> rfl
        · rfl
      rcases h2 with ⟨h2, h3⟩ | ⟨rfl, h3⟩
      · simp [ht, h2]; simpa using h3
      · simp [Token.isWs, Token.isAssigOp]; simpa using h3
    | cons y ws ih =>
      intro n hn
      obtain ⟨n, rfl⟩ : ∃ m, n = m + 1 := ⟨n - 1, by simp at hn; omega⟩
      unfold mpAssigOp
      obtain ⟨q, y⟩ := y
      obtain ⟨w, hw⟩ := h1 (q, y) (by simp)
      simp only at hw
      subst hw
      simp only [TokStream.mpNext, List.map_cons, List.head?_cons, List.tail_cons, List.cons_append]
      simp only [Token.isWs, if_true]
      exact ih (fun x hx => h1 x (by simp [hx])) n (by simp at hn ⊢; omega)
  obtain ⟨n, rfl⟩ : ∃ m, n = m + 2 := ⟨n - 2, by omega⟩
  cases hv with
  | name => exact key (n + 1) (by omega)
  | dollar => exact key n (by omega)

/-! ## The functions of the levels -/

section
variable {B : Builder} {e : SourcePos} {b : B.State}

/-- The parser of a level. -/
def fnOf (lvl : Level) (R : ArithRec AIter B) : P AIter B DefaultArithmetic :=
  match lvl with
  | .seq => arithSubst R
  | .assign => arithAssig R
  | .ternary => arithTernary R
  | .or => arithLogOr R
  | .and => arithLogAnd R
  | .bitOr => arithBitOr R
  | .bitXor => arithBitXor R
  | .bitAnd => arithBitAnd R
  | .eq => arithEq R
  | .rel => arithIneq R
  | .shift => arithShift R
  | .add => arithAdd R
  | .mult => arithMult R
  | .pow => arithPow R
  | .unary => arithUnary R
  | .primary => arithPostIncr R

/-- The loop body of a level of left-associative operators. -/
def bodyOf (lvl : Level) (R : ArithRec AIter B) :
    DefaultArithmetic → P AIter B (Step DefaultArithmetic DefaultArithmetic) :=
  match lvl with
  | .or => arithBinBody (arithLogAnd R) logOrOp
  | .and => arithBinBody (arithBitOr R) logAndOp
  | .bitOr => arithBinBody (arithBitXor R) bitOrOp
  | .bitXor => arithBinBody (arithBitAnd R) bitXorOp
  | .bitAnd => arithBinBody (arithEq R) bitAndOp
  | .eq => arithEqBody R
  | .rel => arithIneqBody R
  | .shift => arithBinBody (arithAdd R) shiftOp
  | .add => arithBinBody (arithMult R) addOp
  | .mult => arithBinBody (arithPow R) multOp
  | _ => fun a => pure (.done a)

def isBin : Level → Bool
  | .or | .and | .bitOr | .bitXor | .bitAnd | .eq | .rel | .shift | .add | .mult => true
  | _ => false

theorem fnOf_bin {lvl : Level} (h : isBin lvl = true) (R : ArithRec AIter B) :
    fnOf lvl R = (fnOf lvl.tighter R >>= fun a => loop (bodyOf lvl R) a) := by
  cases lvl <;> first | (cases h; done) | rfl

theorem binBody_done {sub : P AIter B DefaultArithmetic} {op : Token → Option BinMk}
    {a : DefaultArithmetic} {r : List PTok} (hr : NoBlank r)
    (h : ∀ x r', r = x :: r' → op x.2 = none) :
    arithBinBody sub op a (st r e b) = (.ok (.done a), st r e b) := by
  unfold arithBinBody
  rw [bind_ok (skipWhitespace_noop hr), peek_bind]
  rcases r with _ | ⟨x, r⟩
  · rfl
  · simp only [List.head?_cons, Option.map_some, h x r rfl]
    rfl

theorem body_done {lvl : Level} (hl : isBin lvl = true) {R : ArithRec AIter B}
    {a : DefaultArithmetic} {ev : Prop} {r : List PTok} (hr : NoBlank r) (hf : Follow lvl ev r) :
    bodyOf lvl R a (st r e b) = (.ok (.done a), st r e b) := by
  have h1 := hf.1
  have key : ∀ (op : Token → Option BinMk), (∀ t mk, op t = some mk → orank t = some (lrank lvl)) →
      ∀ x r', r = x :: r' → op x.2 = none := by
    intro op h2 x r' heq
    cases ho : op x.2 with
    | none => rfl
    | some mk => exact absurd (h1 x r' heq _ (h2 _ _ ho)) (Nat.lt_irrefl _)
  cases lvl with
  | or => exact binBody_done hr (key _ fun t mk h => by cases t <;> cases h <;> rfl)
  | and => exact binBody_done hr (key _ fun t mk h => by cases t <;> cases h <;> rfl)
  | bitOr => exact binBody_done hr (key _ fun t mk h => by cases t <;> cases h <;> rfl)
  | bitXor => exact binBody_done hr (key _ fun t mk h => by cases t <;> cases h <;> rfl)
  | bitAnd => exact binBody_done hr (key _ fun t mk h => by cases t <;> cases h <;> rfl)
  | shift => exact binBody_done hr (key _ fun t mk h => by cases t <;> cases h <;> rfl)
  | add => exact binBody_done hr (key _ fun t mk h => by cases t <;> cases h <;> rfl)
  | mult => exact binBody_done hr (key _ fun t mk h => by cases t <;> cases h <;> rfl)
  | seq | assign | ternary | pow | unary | primary => cases hl
  | eq =>
    show arithEqBody R a _ = _
    unfold arithEqBody
    rw [bind_ok (skipWhitespace_noop hr), peek_bind]
    rcases r with _ | ⟨⟨p, t⟩, r⟩
    · rfl
    · have := h1 _ _ rfl
      cases t <;> first | rfl | simp [orank, lrank] at this
  | rel =>
    show arithIneqBody R a _ = _
    unfold arithIneqBody
    rw [bind_ok (skipWhitespace_noop hr), peek_bind]
    rcases r with _ | ⟨⟨p, t⟩, r⟩
    · rfl
    · have := h1 _ _ rfl
      cases t <;> first | rfl | simp [orank, lrank] at this

theorem binBody_step {sub : P AIter B DefaultArithmetic} {op : Token → Option BinMk}
    {a c : DefaultArithmetic} {p : SourcePos} {t : Token} {mk : BinMk} {l : List PTok}
    {s' : PSt AIter B} (hw : t.isWs = false) (hbs : t ≠ .Backslash)
    (ho : op t = some mk) (h : sub (st l e b) = (.ok c, s')) :
    arithBinBody sub op a (st ((p, t) :: l) e b) = (.ok (.cont (mk a c)), s') := by
  unfold arithBinBody
  rw [bind_ok (skipWhitespace_noop (noBlank_cons hw hbs)), peek_bind]
  simp only [List.head?_cons, Option.map_some, ho]
  rw [next_bind_cons, bind_ok h]
  rfl

theorem body_step {lvl : Level} {R : ArithRec AIter B} {a c : DefaultArithmetic} {op : List PTok}
    {mk : BinMk} {l : List PTok} {s' : PSt AIter B} (ho : (op.map (·.2), mk) ∈ binOps lvl)
    (hl : l.head?.map (·.2) ≠ some .Equals)
    (h : fnOf lvl.tighter R (st l e b) = (.ok c, s')) :
    bodyOf lvl R a (st (op ++ l) e b) = (.ok (.cont (mk a c)), s') := by
  rcases op with _ | ⟨⟨p, t⟩, op⟩
  · cases lvl <;> simp [binOps] at ho
  · cases lvl <;> simp [binOps] at ho
    case eq =>
      rcases op with _ | ⟨⟨q, t'⟩, op⟩ <;> simp at ho
      show arithEqBody R a _ = _
      unfold arithEqBody
      rcases ho with ⟨⟨rfl, rfl, rfl⟩, rfl⟩ | ⟨⟨rfl, rfl, rfl⟩, rfl⟩
      · rw [List.cons_append, bind_ok (skipWhitespace_noop (noBlank_cons rfl (by simp))), peek_bind]
        simp only [List.head?_cons, Option.map_some]
        rw [next_bind_cons, List.cons_append, eat_bind, List.nil_append]
        refine Eq.trans (bind_ok h) rfl
      · rw [List.cons_append, bind_ok (skipWhitespace_noop (noBlank_cons rfl (by simp))), peek_bind]
        simp only [List.head?_cons, Option.map_some]
        rw [next_bind_cons, List.cons_append, eat_bind, List.nil_append]
        refine Eq.trans (bind_ok h) rfl
    case rel =>
      show arithIneqBody R a _ = _
      unfold arithIneqBody
      rcases op with _ | ⟨⟨q, t'⟩, op⟩ <;> simp at ho
      · rcases ho with ⟨rfl, rfl⟩ | ⟨rfl, rfl⟩
        · rw [List.cons_append, bind_ok (skipWhitespace_noop (noBlank_cons rfl (by simp))), peek_bind]
          simp only [List.head?_cons, Option.map_some]
          rw [next_bind_cons, List.nil_append, eatMaybe_bind_no _ hl]
          refine Eq.trans (bind_ok h) rfl
        · rw [List.cons_append, bind_ok (skipWhitespace_noop (noBlank_cons rfl (by simp))), peek_bind]
          simp only [List.head?_cons, Option.map_some]
          rw [next_bind_cons, List.nil_append, eatMaybe_bind_no _ hl]
          refine Eq.trans (bind_ok h) rfl
      · rcases ho with ⟨⟨rfl, rfl, rfl⟩, rfl⟩ | ⟨⟨rfl, rfl, rfl⟩, rfl⟩
        · rw [List.cons_append, bind_ok (skipWhitespace_noop (noBlank_cons rfl (by simp))), peek_bind]
          simp only [List.head?_cons, Option.map_some]
          rw [next_bind_cons, List.cons_append, eatMaybe_bind_yes, List.nil_append]
          refine Eq.trans (bind_ok h) rfl
        · rw [List.cons_append, bind_ok (skipWhitespace_noop (noBlank_cons rfl (by simp))), peek_bind]
          simp only [List.head?_cons, Option.map_some]
          rw [next_bind_cons, List.cons_append, eatMaybe_bind_yes, List.nil_append]
          refine Eq.trans (bind_ok h) rfl
    all_goals
      rcases op with _ | ⟨⟨q, t'⟩, op⟩ <;> simp at ho
      refine binBody_step (mk := mk) ?_ ?_ ?_ h <;> grind [Token.isWs, logOrOp, logAndOp, bitOrOp,
        bitXorOp, bitAndOp, shiftOp, addOp, multOp]

theorem binOps_follow {lvl : Level} {ev : Prop} {op : List PTok} {mk : BinMk} {l : List PTok}
    (ho : (op.map (·.2), mk) ∈ binOps lvl)
    (h1 : lvl = .add → ev → ∀ x ∈ op, ∀ p r, l ≠ (p, x.2) :: r)
    (h2 : l.head?.map (·.2) ≠ some .Star) :
    Follow lvl.tighter ev (op ++ l) ∧ NoBlank (op ++ l) := by
  have dbl : ∀ p t, ¬ Doubled ((p, t) :: l) ∨ ∃ q r, l = (q, t) :: r ∧
      (t = .Plus ∨ t = .Dash) := by
    intro p t
    rcases l with _ | ⟨⟨q, t'⟩, l⟩
    · left; simp [Doubled]
    · simp [Doubled]; grind
  have dbs : ∀ p t, ¬ StarStar ((p, t) :: l) := by
    intro p t
    rcases l with _ | ⟨⟨q, t'⟩, l⟩
    · simp [StarStar]
    · simp [StarStar] at h2 ⊢; grind
  rcases op with _ | ⟨⟨p, t⟩, op⟩
  · cases lvl <;> simp [binOps] at ho
  · refine ⟨⟨?_, fun hev => ?_, fun _ => ?_⟩, ?_⟩
    · rintro x r' heq k hk
      cases heq
      cases lvl <;> simp [binOps] at ho <;> simp [lrank, Level.tighter] <;> grind [orank]
    · cases lvl <;> simp [binOps] at ho
      case add =>
        rcases op with _ | ⟨⟨q, t'⟩, op⟩ <;> simp at ho
        rcases dbl p t with h | ⟨q, r, rfl, h⟩
        · exact h
        · exact absurd rfl (h1 rfl hev (p, t) (by simp) q r)
      all_goals
        rcases op with _ | ⟨⟨q, t'⟩, op⟩ <;> simp at ho
      all_goals
        first
        | (rcases dbl p t with h | ⟨q, r, rfl, h⟩
           · exact h
           · exfalso; grind)
        | (simp [Doubled]; grind)
    · cases lvl <;> simp [binOps] at ho
      all_goals
        rcases op with _ | ⟨⟨q, t'⟩, op⟩ <;> simp at ho
      all_goals
        first
        | exact dbs p t
        | (simp [StarStar]; grind)
    · refine noBlank_cons ?_ ?_ <;> cases lvl <;> simp [binOps] at ho <;> grind [Token.isWs]

/-! ## The claims -/

def ClaimE (e : SourcePos) (b : B.State) (lvl : Level) (u : List PTok) (a : DefaultArithmetic) :
    Prop :=
  ∀ n bs r, (u ++ bs ++ r).length ≤ n → Blanks bs → NoBlank r → Follow lvl (EndsVar u a) r →
    fnOf lvl (ArithRec.fix n) (st (u ++ bs ++ r) e b) = (.ok a, st r e b)

def ClaimBin (e : SourcePos) (b : B.State) (lvl : Level) (u : List PTok) (a : DefaultArithmetic) :
    Prop :=
  ∀ n bs r res, (u ++ bs ++ r).length ≤ n → Blanks bs → NoBlank r →
    Follow lvl.tighter (EndsVar u a) r →
    LoopRun (bodyOf lvl (ArithRec.fix n)) a (st r e b) res →
    fnOf lvl (ArithRec.fix n) (st (u ++ bs ++ r) e b) = res

def ClaimU (e : SourcePos) (b : B.State) (lvl : Level) (u : List PTok) (a : DefaultArithmetic) :
    Prop :=
  ∀ n bs r, (u ++ bs ++ r).length ≤ n → Blanks bs → NoBlank r → Follow lvl (EndsVar u a) r →
    ∃ bs', Blanks bs' ∧
      fnOf lvl (ArithRec.fix n) (st (u ++ bs ++ r) e b) = (.ok a, st (bs' ++ r) e b)

def Claim (e : SourcePos) (b : B.State) (lvl : Level) (u : List PTok) (a : DefaultArithmetic) :
    Prop :=
  if isBin lvl then ClaimBin e b lvl u a
  else if lvl = .unary ∨ lvl = .primary then ClaimU e b lvl u a
  else ClaimE e b lvl u a

theorem ClaimBin.toE {lvl : Level} (hl : isBin lvl = true) {u : List PTok} {a : DefaultArithmetic}
    (h : ClaimBin e b lvl u a) : ClaimE e b lvl u a := by
  intro n bs r hn hb hr hf
  exact h n bs r _ hn hb hr hf.tighter (.done (body_done hl hr hf))

theorem Claim.toE {lvl : Level} (hl : lrank lvl ≤ 13) {u : List PTok} {a : DefaultArithmetic}
    (h : Claim e b lvl u a) : ClaimE e b lvl u a := by
  unfold Claim at h
  split at h
  · exact h.toE (by assumption)
  · split at h
    · rename_i h'
      rcases h' with rfl | rfl <;> simp [lrank] at hl
    · exact h

theorem bind_congr {I α β : Type} {m : P I B α} {f : α → P I B β} {s s' : PSt I B}
    (h : m s = m s') : (m >>= f) s = (m >>= f) s' := by
  show P.bind m f s = P.bind m f s'
  unfold P.bind
  rw [h]

theorem skip_congr {bs l : List PTok} (hb : Blanks bs) (hl : NoBlank l) :
    skipWhitespace (st (bs ++ l) e b) = skipWhitespace (st l e b) := by
  rw [skipWhitespace_eq hb hl, skipWhitespace_noop hl]

theorem fn_blanks {lvl : Level} (h : lrank .ternary ≤ lrank lvl) (R : ArithRec AIter B)
    {bs l : List PTok} (hb : Blanks bs) (hl : NoBlank l) :
    fnOf lvl R (st (bs ++ l) e b) = fnOf lvl R (st l e b) := by
  have hskip := skip_congr (e := e) (b := b) hb hl
  have un : arithUnary R (st (bs ++ l) e b) = arithUnary R (st l e b) := by
    unfold arithUnary; exact bind_congr hskip
  have pow : arithPow R (st (bs ++ l) e b) = arithPow R (st l e b) := by
    unfold arithPow; exact bind_congr un
  have bin : ∀ {sub : P AIter B DefaultArithmetic} {op : Token → Option BinMk},
      sub (st (bs ++ l) e b) = sub (st l e b) →
      arithBin sub op (st (bs ++ l) e b) = arithBin sub op (st l e b) := by
    intro sub op h; unfold arithBin; exact bind_congr h
  have mult : arithMult R (st (bs ++ l) e b) = arithMult R (st l e b) := bin pow
  have add : arithAdd R (st (bs ++ l) e b) = arithAdd R (st l e b) := bin mult
  have shift : arithShift R (st (bs ++ l) e b) = arithShift R (st l e b) := bin add
  have rel : arithIneq R (st (bs ++ l) e b) = arithIneq R (st l e b) := by
    unfold arithIneq; exact bind_congr shift
  have eq : arithEq R (st (bs ++ l) e b) = arithEq R (st l e b) := by
    unfold arithEq; exact bind_congr rel
  have band : arithBitAnd R (st (bs ++ l) e b) = arithBitAnd R (st l e b) := bin eq
  have bxor : arithBitXor R (st (bs ++ l) e b) = arithBitXor R (st l e b) := bin band
  have bor : arithBitOr R (st (bs ++ l) e b) = arithBitOr R (st l e b) := bin bxor
  have and : arithLogAnd R (st (bs ++ l) e b) = arithLogAnd R (st l e b) := bin bor
  have or : arithLogOr R (st (bs ++ l) e b) = arithLogOr R (st l e b) := bin and
  cases lvl with
  | seq | assign => simp [lrank] at h
  | ternary => show arithTernary R _ = arithTernary R _; unfold arithTernary; exact bind_congr or
  | or => exact or
  | and => exact and
  | bitOr => exact bor
  | bitXor => exact bxor
  | bitAnd => exact band
  | eq => exact eq
  | rel => exact rel
  | shift => exact shift
  | add => exact add
  | mult => exact mult
  | pow => exact pow
  | unary => exact un
  | primary =>
    show arithPostIncr R _ = arithPostIncr R _; unfold arithPostIncr; exact bind_congr hskip

theorem noBlank_starter {p : SourcePos} {t : Token} {l : List PTok} (h1 : t.isWs = false)
    (h2 : t ≠ .Backslash) : NoBlank ((p, t) :: l) := noBlank_cons h1 h2

theorem noBlank_var {vs : List PTok} {x : Str} (h : VarRef vs x) (l : List PTok) :
    NoBlank (vs ++ l) := by
  cases h <;> exact noBlank_cons rfl (by simp)

theorem arithVar_ref {bs vs l : List PTok} {x : Str} (hb : Blanks bs) (hv : VarRef vs x) :
    arithVar (st (bs ++ vs ++ l) e b) = (.ok x, st l e b) := by
  unfold arithVar
  rw [List.append_assoc, bind_ok (skipWhitespace_eq hb (noBlank_var hv l))]
  cases hv with
  | name =>
    rw [List.cons_append, List.nil_append, eatMaybe_bind_no _ (by simp), peek_bind]
    rfl
  | dollar =>
    rw [List.cons_append, List.cons_append, List.nil_append, eatMaybe_bind_yes, peek_bind]
    rfl

/-! ### Primary expressions -/

theorem arithVarPost_var {bs0 vs bs r : List PTok} {x : Str} (hb0 : Blanks bs0) (hv : VarRef vs x)
    (hb : Blanks bs) (hr : NoBlank r) (hd : ¬ Doubled r) :
    arithVarPost (st (bs0 ++ vs ++ bs ++ r) e b) = (.ok (.Var x), st r e b) := by
  unfold arithVarPost
  rw [List.append_assoc, bind_ok (arithVar_ref hb0 hv), bind_ok (skipWhitespace_eq hb hr),
    lookahead_bind (mpPostIncr_it _), if_neg]
  · rfl
  · rw [mpPostIncr_val]
    rintro ⟨p, q, r', rfl | rfl⟩ <;> simp [Doubled] at hd

theorem arithVarPost_incr {bs0 vs bs r : List PTok} {x : Str} {p q : SourcePos} (hb0 : Blanks bs0)
    (hv : VarRef vs x) (hb : Blanks bs) :
    arithVarPost (st (bs0 ++ vs ++ bs ++ [(p, .Plus), (q, .Plus)] ++ r) e b) =
      (.ok (.PostIncr x), st r e b) := by
  unfold arithVarPost
  rw [List.append_assoc, List.append_assoc, bind_ok (arithVar_ref hb0 hv),
    List.cons_append, bind_ok (skipWhitespace_eq hb (noBlank_cons rfl (by simp))),
    lookahead_bind (mpPostIncr_it _), if_pos]
  · rfl
  · rw [mpPostIncr_val]
    exact ⟨_, _, _, .inl rfl⟩

theorem arithVarPost_decr {bs0 vs bs r : List PTok} {x : Str} {p q : SourcePos} (hb0 : Blanks bs0)
    (hv : VarRef vs x) (hb : Blanks bs) :
    arithVarPost (st (bs0 ++ vs ++ bs ++ [(p, .Dash), (q, .Dash)] ++ r) e b) =
      (.ok (.PostDecr x), st r e b) := by
  unfold arithVarPost
  rw [List.append_assoc, List.append_assoc, bind_ok (arithVar_ref hb0 hv),
    List.cons_append, bind_ok (skipWhitespace_eq hb (noBlank_cons rfl (by simp))),
    lookahead_bind (mpPostIncr_it _), if_pos]
  · rfl
  · rw [mpPostIncr_val]
    exact ⟨_, _, _, .inr rfl⟩

/-- A variable is left to `arith_var`. -/
theorem postIncr_var {R : ArithRec AIter B} {bs vs l : List PTok} {x : Str} (hb : Blanks bs)
    (hv : VarRef vs x) :
    arithPostIncr R (st (bs ++ vs ++ l) e b) = arithVarPost (st (vs ++ l) e b) := by
  unfold arithPostIncr
  rw [List.append_assoc, bind_ok (skipWhitespace_eq hb (noBlank_var hv l)), peek_bind]
  cases hv <;> rfl

theorem fix_succ (n : Nat) : (ArithRec.fix (n + 1) : ArithRec AIter B) =
    { subst := arithSubst (ArithRec.fix n), assig := arithAssig (ArithRec.fix n),
      ternary := arithTernary (ArithRec.fix n), pow := arithPow (ArithRec.fix n),
      unary := arithUnary (ArithRec.fix n) } := rfl

theorem claim_var {bs vs : List PTok} {x : Str} (hb : Blanks bs) (hv : VarRef vs x) :
    Claim e b .primary (bs ++ vs) (.Var x) := by
  intro n bs' r hn hb' hr hf
  refine ⟨[], .nil, ?_⟩
  show arithPostIncr _ _ = _
  rw [List.append_assoc, postIncr_var hb hv, ← List.append_assoc]
  have := arithVarPost_var (e := e) (b := b) .nil hv hb' hr (hf.2.1 (endsVar_var hv))
  exact this

theorem claim_postIncr {bs vs bs1 : List PTok} {x : Str} {p q : SourcePos} (hb : Blanks bs)
    (hv : VarRef vs x) (hb1 : Blanks bs1) :
    Claim e b .primary (bs ++ vs ++ bs1 ++ [(p, .Plus), (q, .Plus)]) (.PostIncr x) := by
  intro n bs' r hn hb' hr hf
  refine ⟨bs', hb', ?_⟩
  show arithPostIncr _ _ = _
  have h := arithVarPost_incr (e := e) (b := b) (p := p) (q := q) (r := bs' ++ r) .nil hv hb1
  simp only [List.append_assoc, List.nil_append] at h
  have h' := postIncr_var (e := e) (b := b) (R := ArithRec.fix n)
    (l := bs1 ++ ([(p, .Plus), (q, .Plus)] ++ (bs' ++ r))) hb hv
  rw [h] at h'
  simp only [List.append_assoc] at h' ⊢
  exact h'

theorem claim_postDecr {bs vs bs1 : List PTok} {x : Str} {p q : SourcePos} (hb : Blanks bs)
    (hv : VarRef vs x) (hb1 : Blanks bs1) :
    Claim e b .primary (bs ++ vs ++ bs1 ++ [(p, .Dash), (q, .Dash)]) (.PostDecr x) := by
  intro n bs' r hn hb' hr hf
  refine ⟨bs', hb', ?_⟩
  show arithPostIncr _ _ = _
  have h := arithVarPost_decr (e := e) (b := b) (p := p) (q := q) (r := bs' ++ r) .nil hv hb1
  simp only [List.append_assoc, List.nil_append] at h
  have h' := postIncr_var (e := e) (b := b) (R := ArithRec.fix n)
    (l := bs1 ++ ([(p, .Dash), (q, .Dash)] ++ (bs' ++ r))) hb hv
  rw [h] at h'
  simp only [List.append_assoc] at h' ⊢
  exact h'

theorem claim_literal {bs : List PTok} {p : SourcePos} {x : Str} {n : Int} (hb : Blanks bs)
    (h1 : Numeral x n) (h2 : InRange n) :
    Claim e b .primary (bs ++ [(p, .Literal x)]) (.Literal n) := by
  intro k bs' r hn hb' hr hf
  refine ⟨bs', hb', ?_⟩
  show arithPostIncr _ _ = _
  unfold arithPostIncr
  rw [List.append_assoc, List.append_assoc, List.cons_append, List.nil_append,
    bind_ok (skipWhitespace_eq hb (noBlank_cons rfl (by simp))), peek_bind]
  simp only [List.head?_cons, Option.map_some, (literalValue_iff _ _).2 ⟨h1, h2⟩]
  rfl

theorem claim_paren {bs u bs1 : List PTok} {p q : SourcePos} {a : DefaultArithmetic} (hb : Blanks bs)
    (hu : ClaimE e b .seq u a) (hb1 : Blanks bs1) :
    Claim e b .primary (bs ++ (p, .ParenOpen) :: u ++ bs1 ++ [(q, .ParenClose)]) a := by
  intro k bs' r hn hb' hr hf
  refine ⟨bs', hb', ?_⟩
  show arithPostIncr _ _ = _
  unfold arithPostIncr
  obtain ⟨k, rfl⟩ : ∃ m, k = m + 1 := ⟨k - 1, by simp at hn; omega⟩
  have heq : bs ++ (p, Token.ParenOpen) :: u ++ bs1 ++ [(q, Token.ParenClose)] ++ bs' ++ r =
      bs ++ (p, Token.ParenOpen) :: (u ++ bs1 ++ (q, Token.ParenClose) :: (bs' ++ r)) := by simp
  rw [heq, bind_ok (skipWhitespace_eq hb (noBlank_cons rfl (by simp))), peek_bind]
  simp only [List.head?_cons, Option.map_some]
  rw [next_bind_cons, fix_succ]
  have := hu k bs1 ((q, Token.ParenClose) :: (bs' ++ r)) (by simp at hn ⊢; omega) hb1
    (noBlank_cons rfl (by simp)) (follow_none rfl)
  change arithSubst _ _ = _ at this
  rw [bind_ok this, bind_ok (skipWhitespace_noop (noBlank_cons rfl (by simp))), eat_bind]
  rfl

/-! ### Unary expressions -/

theorem claim_unary_of_primary {u : List PTok} {a : DefaultArithmetic} {sep : Signs}
    (h : Expr sep .primary u a) (hc : ClaimU e b .primary u a) : Claim e b .unary u a := by
  intro n bs r hn hb hr hf
  obtain ⟨bs', hb', heq⟩ := hc n bs r hn hb hr
    (hf.mono (by simp [lrank]))
  refine ⟨bs', hb', ?_⟩
  rw [← heq]
  show arithUnary _ _ = arithPostIncr _ _
  have key : ∀ {bs0 : List PTok} {p t l}, Blanks bs0 → u ++ bs ++ r = bs0 ++ (p, t) :: l →
      t.isWs = false → t ≠ .Backslash → t ≠ .Bang → t ≠ .Tilde → t ≠ .Plus → t ≠ .Dash →
      arithUnary (ArithRec.fix n) (st (u ++ bs ++ r) e b) =
        arithPostIncr (ArithRec.fix n) (st (u ++ bs ++ r) e b) := by
    intro bs0 p t l hb0 heq h1 h2 h3 h4 h5 h6
    have h7 := fn_blanks (e := e) (b := b) (lvl := .primary) (by simp [lrank]) (ArithRec.fix n) hb0
      (noBlank_cons (p := p) (l := l) h1 h2)
    rw [heq]
    refine Eq.trans ?_ h7.symm
    unfold arithUnary
    rw [bind_ok (skipWhitespace_eq hb0 (noBlank_cons h1 h2)), peek_bind]
    cases t <;> first | rfl | exact absurd rfl ‹_›
  have keyv : ∀ {bs0 vs : List PTok} {x l}, Blanks bs0 → VarRef vs x → u ++ bs ++ r = bs0 ++ (vs ++ l) →
      arithUnary (ArithRec.fix n) (st (u ++ bs ++ r) e b) =
        arithPostIncr (ArithRec.fix n) (st (u ++ bs ++ r) e b) := by
    intro bs0 vs x l hb0 hv heq
    cases hv with
    | name => exact key hb0 heq rfl (by simp) (by simp) (by simp) (by simp) (by simp)
    | dollar => exact key hb0 heq rfl (by simp) (by simp) (by simp) (by simp) (by simp)
  cases h with
  | tighter h => exact absurd rfl h
  | bin h => simp [binOps] at h
  | postIncr h1 h2 h3 => exact keyv h1 h2 (by simp only [List.append_assoc]; rfl)
  | postDecr h1 h2 h3 => exact keyv h1 h2 (by simp only [List.append_assoc]; rfl)
  | var h1 h2 => exact keyv h1 h2 (by simp only [List.append_assoc]; rfl)
  | literal h1 h2 h3 =>
    exact key h1 (by simp only [List.append_assoc, List.cons_append]; rfl) rfl
      (by simp) (by simp) (by simp) (by simp) (by simp)
  | paren h1 h2 h3 =>
    exact key h1 (by simp only [List.append_assoc, List.cons_append]; rfl) rfl
      (by simp) (by simp) (by simp) (by simp) (by simp)

theorem claim_unop {bs u : List PTok} {p : SourcePos} {t : Token} {a : DefaultArithmetic}
    {mk : DefaultArithmetic → DefaultArithmetic} (hb : Blanks bs) (hu : ClaimU e b .unary u a)
    (hws : t.isWs = false) (hbs : t ≠ .Backslash)
    (hf : ∀ n l, l.head? = u.head? → arithUnary (ArithRec.fix n) (st ((p, t) :: l) e b) =
      ((ArithRec.fix n : ArithRec AIter B).unary >>= fun x => pure (mk x)) (st l e b))
    (hne : u ≠ []) (hl : lastVar (mk a) = lastVar a) :
    Claim e b .unary (bs ++ (p, t) :: u) (mk a) := by
  intro n bs' r hn hb' hr hfo
  obtain ⟨n, rfl⟩ : ∃ m, n = m + 1 := ⟨n - 1, by simp at hn; omega⟩
  obtain ⟨bs2, hb2, h2⟩ := hu n bs' r (by simp at hn ⊢; omega) hb' hr
    (hfo.ev (endsVar_op hne hl).2)
  refine ⟨bs2, hb2, ?_⟩
  have heq : bs ++ (p, t) :: u ++ bs' ++ r = bs ++ (p, t) :: (u ++ bs' ++ r) := by simp
  have h7 := fn_blanks (e := e) (b := b) (lvl := .unary) (by simp [lrank]) (ArithRec.fix (n + 1)) hb
      (noBlank_cons (p := p) (l := u ++ bs' ++ r) hws hbs)
  rw [heq, h7]
  show arithUnary _ _ = _
  rw [hf (n + 1) _ (by rcases u with _ | ⟨x, u⟩ <;> simp_all), fix_succ]
  change (arithUnary _ >>= _) _ = _
  change arithUnary _ _ = _ at h2
  rw [bind_ok h2]
  rfl

theorem claim_not {bs u : List PTok} {p : SourcePos} {a : DefaultArithmetic} (hb : Blanks bs)
    (hu : ClaimU e b .unary u a) (hne : u ≠ []) :
    Claim e b .unary (bs ++ (p, .Bang) :: u) (.LogicalNot a) := by
  refine claim_unop hb hu rfl (by simp) ?_ hne (by simp [lastVar])
  intro n l _
  unfold arithUnary
  rw [bind_ok (skipWhitespace_noop (noBlank_cons rfl (by simp))), peek_bind]
  simp only [List.head?_cons, Option.map_some]
  rw [next_bind_cons]

theorem claim_bitNot {bs u : List PTok} {p : SourcePos} {a : DefaultArithmetic} (hb : Blanks bs)
    (hu : ClaimU e b .unary u a) (hne : u ≠ []) :
    Claim e b .unary (bs ++ (p, .Tilde) :: u) (.BitwiseNot a) := by
  refine claim_unop hb hu rfl (by simp) ?_ hne (by simp [lastVar])
  intro n l _
  unfold arithUnary
  rw [bind_ok (skipWhitespace_noop (noBlank_cons rfl (by simp))), peek_bind]
  simp only [List.head?_cons, Option.map_some]
  rw [next_bind_cons]

theorem noSign_of_head {u l : List PTok} (h : l.head? = u.head?) (hs : NoSign u) : NoSign l := by
  intro p r
  constructor
  · rintro rfl
    rcases u with _ | ⟨x, u⟩
    · simp at h
    · simp at h; subst h; exact (hs _ _).1 rfl
  · rintro rfl
    rcases u with _ | ⟨x, u⟩
    · simp at h
    · simp at h; subst h; exact (hs _ _).2 rfl

theorem claim_plus {bs u : List PTok} {p : SourcePos} {a : DefaultArithmetic} (hb : Blanks bs)
    (hu : ClaimU e b .unary u a) (hne : u ≠ []) (hs : NoSign u) :
    Claim e b .unary (bs ++ (p, .Plus) :: u) (.UnaryPlus a) := by
  refine claim_unop hb hu rfl (by simp) ?_ hne (by simp [lastVar])
  intro n l hl
  have := noSign_of_head hl hs
  unfold arithUnary
  rw [bind_ok (skipWhitespace_noop (noBlank_cons rfl (by simp))), peek_bind]
  simp only [List.head?_cons, Option.map_some]
  rw [next_bind_cons, peek_bind]
  rcases l with _ | ⟨⟨q, t⟩, l⟩
  · rfl
  · cases t <;> first | rfl | exact absurd rfl (this _ _).1 | exact absurd rfl (this _ _).2

theorem claim_minus {bs u : List PTok} {p : SourcePos} {a : DefaultArithmetic} (hb : Blanks bs)
    (hu : ClaimU e b .unary u a) (hne : u ≠ []) (hs : NoSign u) :
    Claim e b .unary (bs ++ (p, .Dash) :: u) (.UnaryMinus a) := by
  refine claim_unop hb hu rfl (by simp) ?_ hne (by simp [lastVar])
  intro n l hl
  have := noSign_of_head hl hs
  unfold arithUnary
  rw [bind_ok (skipWhitespace_noop (noBlank_cons rfl (by simp))), peek_bind]
  simp only [List.head?_cons, Option.map_some]
  rw [next_bind_cons, peek_bind]
  rcases l with _ | ⟨⟨q, t⟩, l⟩
  · rfl
  · cases t <;> first | rfl | exact absurd rfl (this _ _).1 | exact absurd rfl (this _ _).2

theorem claim_plusMinus {bs u : List PTok} {p q : SourcePos} {a : DefaultArithmetic} (hb : Blanks bs)
    (hu : ClaimU e b .unary u a) (hne : u ≠ []) :
    Claim e b .unary (bs ++ (p, .Plus) :: (q, .Dash) :: u) (.UnaryPlus (.UnaryMinus a)) := by
  intro n bs' r hn hb' hr hfo
  obtain ⟨n, rfl⟩ : ∃ m, n = m + 1 := ⟨n - 1, by simp at hn; omega⟩
  obtain ⟨bs2, hb2, h2⟩ := hu n bs' r (by simp at hn ⊢; omega) hb' hr
    (hfo.ev (endsVar_op2 hne (by simp [lastVar])).2)
  refine ⟨bs2, hb2, ?_⟩
  have heq : bs ++ (p, Token.Plus) :: (q, .Dash) :: u ++ bs' ++ r =
      bs ++ (p, .Plus) :: (q, .Dash) :: (u ++ bs' ++ r) := by simp
  rw [heq]
  change arithUnary _ _ = _ at h2
  show arithUnary _ _ = _
  rw [arithUnary, bind_ok (skipWhitespace_eq hb (noBlank_cons rfl (by simp))), peek_bind]
  simp only [List.head?_cons, Option.map_some]
  rw [next_bind_cons, peek_bind]
  simp only [List.head?_cons, Option.map_some]
  rw [next_bind_cons, fix_succ]
  refine Eq.trans (bind_ok h2) rfl

theorem claim_minusPlus {bs u : List PTok} {p q : SourcePos} {a : DefaultArithmetic} (hb : Blanks bs)
    (hu : ClaimU e b .unary u a) (hne : u ≠ []) :
    Claim e b .unary (bs ++ (p, .Dash) :: (q, .Plus) :: u) (.UnaryMinus (.UnaryPlus a)) := by
  intro n bs' r hn hb' hr hfo
  obtain ⟨n, rfl⟩ : ∃ m, n = m + 1 := ⟨n - 1, by simp at hn; omega⟩
  obtain ⟨bs2, hb2, h2⟩ := hu n bs' r (by simp at hn ⊢; omega) hb' hr
    (hfo.ev (endsVar_op2 hne (by simp [lastVar])).2)
  refine ⟨bs2, hb2, ?_⟩
  have heq : bs ++ (p, Token.Dash) :: (q, .Plus) :: u ++ bs' ++ r =
      bs ++ (p, .Dash) :: (q, .Plus) :: (u ++ bs' ++ r) := by simp
  rw [heq]
  change arithUnary _ _ = _ at h2
  show arithUnary _ _ = _
  rw [arithUnary, bind_ok (skipWhitespace_eq hb (noBlank_cons rfl (by simp))), peek_bind]
  simp only [List.head?_cons, Option.map_some]
  rw [next_bind_cons, peek_bind]
  simp only [List.head?_cons, Option.map_some]
  rw [next_bind_cons, fix_succ]
  refine Eq.trans (bind_ok h2) rfl

theorem claim_preIncr {bs bs1 vs : List PTok} {p q : SourcePos} {x : Str} (hb : Blanks bs)
    (hb1 : Blanks bs1) (hv : VarRef vs x) :
    Claim e b .unary (bs ++ (p, .Plus) :: (q, .Plus) :: bs1 ++ vs) (.PreIncr x) := by
  intro n bs' r hn hb' hr hfo
  refine ⟨bs', hb', ?_⟩
  have heq : bs ++ (p, Token.Plus) :: (q, .Plus) :: bs1 ++ vs ++ bs' ++ r =
      bs ++ (p, .Plus) :: (q, .Plus) :: (bs1 ++ vs ++ (bs' ++ r)) := by simp
  rw [heq]
  show arithUnary _ _ = _
  unfold arithUnary
  rw [bind_ok (skipWhitespace_eq hb (noBlank_cons rfl (by simp))), peek_bind]
  simp only [List.head?_cons, Option.map_some]
  rw [next_bind_cons, peek_bind]
  simp only [List.head?_cons, Option.map_some]
  rw [next_bind_cons, bind_ok (arithVar_ref hb1 hv)]
  rfl

theorem claim_preDecr {bs bs1 vs : List PTok} {p q : SourcePos} {x : Str} (hb : Blanks bs)
    (hb1 : Blanks bs1) (hv : VarRef vs x) :
    Claim e b .unary (bs ++ (p, .Dash) :: (q, .Dash) :: bs1 ++ vs) (.PreDecr x) := by
  intro n bs' r hn hb' hr hfo
  refine ⟨bs', hb', ?_⟩
  have heq : bs ++ (p, Token.Dash) :: (q, .Dash) :: bs1 ++ vs ++ bs' ++ r =
      bs ++ (p, .Dash) :: (q, .Dash) :: (bs1 ++ vs ++ (bs' ++ r)) := by simp
  rw [heq]
  show arithUnary _ _ = _
  unfold arithUnary
  rw [bind_ok (skipWhitespace_eq hb (noBlank_cons rfl (by simp))), peek_bind]
  simp only [List.head?_cons, Option.map_some]
  rw [next_bind_cons, peek_bind]
  simp only [List.head?_cons, Option.map_some]
  rw [next_bind_cons, bind_ok (arithVar_ref hb1 hv)]
  rfl

/-! ### Binary operators -/

theorem follow_unary_of_pow {ev : Prop} {r : List PTok} (h : Follow .pow ev r) :
    Follow .unary ev r :=
  h.mono (by simp [lrank])

theorem claim_pow_of_unary {u : List PTok} {a : DefaultArithmetic} (hc : ClaimU e b .unary u a) :
    Claim e b .pow u a := by
  intro n bs r hn hb hr hf
  obtain ⟨bs', hb', heq⟩ := hc n bs r hn hb hr (follow_unary_of_pow hf)
  show arithPow _ _ = _
  change arithUnary _ _ = _ at heq
  unfold arithPow
  rw [bind_ok heq, bind_ok (skipWhitespace_eq hb' hr), lookahead_bind (mpDoubleStar_it _), if_neg]
  · rfl
  · rw [mpDoubleStar_val]
    rintro ⟨p, q, r', rfl⟩
    exact hf.2.2 (by simp [lrank]) (by simp [StarStar])

theorem claim_pow {u bs1 v : List PTok} {p q : SourcePos} {a c : DefaultArithmetic}
    (hu : ClaimU e b .unary u a) (hb1 : Blanks bs1) (hv : ClaimE e b .pow v c) (hne : v ≠ []) :
    Claim e b .pow (u ++ bs1 ++ (p, .Star) :: (q, .Star) :: v) (.Pow a c) := by
  intro n bs r hn hb hr hf
  obtain ⟨n, rfl⟩ : ∃ m, n = m + 1 := ⟨n - 1, by simp at hn; omega⟩
  have heq : u ++ bs1 ++ (p, Token.Star) :: (q, .Star) :: v ++ bs ++ r =
      u ++ bs1 ++ ((p, .Star) :: (q, .Star) :: (v ++ bs ++ r)) := by simp
  rw [heq]
  show arithPow _ _ = _
  unfold arithPow
  obtain ⟨bs', hb', h'⟩ := hu (n + 1) bs1 ((p, .Star) :: (q, .Star) :: (v ++ bs ++ r))
    (by simp at hn ⊢; omega) hb1 (noBlank_cons rfl (by simp))
    ⟨by rintro x r' heq k hk; cases heq; simp [orank] at hk; simp [lrank]; omega,
      by simp [Doubled], by simp [lrank]⟩
  change arithUnary _ _ = _ at h'
  rw [bind_ok h', bind_ok (skipWhitespace_eq hb' (noBlank_cons rfl (by simp))),
    lookahead_bind (mpDoubleStar_it _), if_pos (by rw [mpDoubleStar_val]; exact ⟨_, _, _, rfl⟩),
    eat_bind, eat_bind, fix_succ]
  have h2 := hv n bs r (by simp at hn ⊢; omega) hb hr
    (hf.ev (endsVar_op2 hne (by simp [lastVar])).2)
  change arithPow _ _ = _ at h2
  rw [bind_ok h2]
  rfl

theorem claim_bin_of_tighter {lvl : Level} (hl : isBin lvl = true) {u : List PTok}
    {a : DefaultArithmetic} (hc : ClaimE e b lvl.tighter u a) : ClaimBin e b lvl u a := by
  intro n bs r res hn hb hr hf hrun
  rw [fnOf_bin hl, bind_ok (hc n bs r hn hb hr hf)]
  exact hrun.loop

theorem isBin_of_mem {lvl : Level} {x} (h : x ∈ binOps lvl) : isBin lvl = true := by
  cases lvl <;> simp [binOps] at h <;> rfl

theorem claim_bin {lvl : Level} {u bs1 op v : List PTok} {mk : BinMk} {a c : DefaultArithmetic}
    (ho : (op.map (·.2), mk) ∈ binOps lvl) (hu : ClaimBin e b lvl u a) (hb1 : Blanks bs1)
    (hv : ClaimE e b lvl.tighter v c) (hst : Starts v)
    (hs : lvl = .add → Signs.munch.bin u a op v) :
    ClaimBin e b lvl (u ++ bs1 ++ op ++ v) (mk a c) := by
  intro n bs r res hn hb hr hf hrun
  have hf2 := binOps_follow (ev := EndsVar u a) (l := v ++ bs ++ r) ho
    (fun h he x hx p r' heq => by
      obtain ⟨y, v', rfl, _⟩ := hst
      injection heq with h1 _
      exact hs h he x hx p v' (by rw [h1]))
    (by rw [List.append_assoc]; exact starts_head hst _ rfl)
  have h1 := hu n bs1 (op ++ (v ++ bs ++ r)) res (by simp at hn ⊢; omega) hb1 hf2.2 hf2.1
    (.cont (body_step ho (by rw [List.append_assoc]; exact starts_head hst _ rfl)
      (hv n bs r (by simp at hn ⊢; omega) hb hr
        (hf.ev (endsVar_append (starts_ne_nil hst) (lastVar_bin ho _ _)).2))) (by
        obtain ⟨x, v', rfl, _⟩ := hst; simp; omega) hrun)
  simpa only [List.append_assoc] using h1

/-! ### The conditional operator, assignments and sequences -/

theorem claim_ternary_of_or {u : List PTok} {a : DefaultArithmetic} (hc : ClaimE e b .or u a) :
    Claim e b .ternary u a := by
  intro n bs r hn hb hr hf
  have h1 := hc n bs r hn hb hr hf.tighter
  change arithLogOr _ _ = _ at h1
  show arithTernary _ _ = _
  unfold arithTernary
  rw [bind_ok h1, bind_ok (skipWhitespace_noop hr), eatMaybe_bind_no]
  · rfl
  · rcases r with _ | ⟨⟨p, t⟩, r⟩
    · simp
    · rintro h
      cases h
      have := hf.1 _ _ rfl 2 rfl
      simp [lrank] at this

theorem claim_ternary {u bs1 v bs2 w : List PTok} {p q : SourcePos} {a c d : DefaultArithmetic}
    (hu : ClaimE e b .or u a) (hb1 : Blanks bs1) (hv : ClaimE e b .ternary v c) (hb2 : Blanks bs2)
    (hw : ClaimE e b .ternary w d) (hne : w ≠ []) :
    Claim e b .ternary (u ++ bs1 ++ (p, .Question) :: v ++ bs2 ++ (q, .Colon) :: w)
      (.Ternary a c d) := by
  intro n bs r hn hb hr hf
  obtain ⟨n, rfl⟩ : ∃ m, n = m + 1 := ⟨n - 1, by simp at hn; omega⟩
  have heq : u ++ bs1 ++ (p, Token.Question) :: v ++ bs2 ++ (q, .Colon) :: w ++ bs ++ r =
      u ++ bs1 ++ ((p, .Question) :: (v ++ bs2 ++ ((q, .Colon) :: (w ++ bs ++ r)))) := by simp
  rw [heq]
  have h1 := hu (n + 1) bs1 ((p, .Question) :: (v ++ bs2 ++ ((q, .Colon) :: (w ++ bs ++ r))))
    (by simp at hn ⊢; omega) hb1 (noBlank_cons rfl (by simp))
    (follow_cons (k := 2) rfl (by simp [lrank]) (by simp))
  have h2 := hv n bs2 ((q, .Colon) :: (w ++ bs ++ r)) (by simp at hn ⊢; omega) hb2
    (noBlank_cons rfl (by simp)) (follow_none rfl)
  have h3 := hw n bs r (by simp at hn ⊢; omega) hb hr
    (hf.ev (endsVar_op hne (by simp [lastVar])).2)
  change arithLogOr _ _ = _ at h1
  change arithTernary _ _ = _ at h2 h3
  show arithTernary _ _ = _
  rw [arithTernary, bind_ok h1, bind_ok (skipWhitespace_noop (noBlank_cons rfl (by simp))),
    eatMaybe_bind_yes, if_pos rfl, fix_succ]
  simp only
  rw [bind_ok h2, bind_ok (skipWhitespace_noop (noBlank_cons rfl (by simp))), eat_bind, bind_ok h3]
  rfl

theorem assig_lookahead {β : Type} {f : Bool → P AIter B β} {l : List PTok} :
    ((fun s => lookahead (mpAssig (TokStream.len s.it + 2)) s : P AIter B Bool) >>= f) (st l e b) =
      f (mpAssig (I := AIter) (l.length + 2) (AMultipeek.mk ⟨l, e⟩ (l.map (·.2)))).1 (st l e b) := by
  have := lookahead_bind (e := e) (b := b) (f := f) (g := mpAssig (l.length + 2)) (l := l)
    (mpAssig_it _ _)
  exact this

theorem claim_assign_of_ternary {u : List PTok} {a : DefaultArithmetic} {sep : Signs}
    (h : Expr sep .ternary u a) (hc : ClaimE e b .ternary u a) : Claim e b .assign u a := by
  intro n bs r hn hb hr hf
  have h1 := hc n bs r hn hb hr hf.tighter
  obtain ⟨bs0, v, rfl, hb0, hform⟩ := expr_headForm h (by simp [lrank])
  have hnb : NoBlank (v ++ (bs ++ r)) := by
    rcases hform with ⟨vs, x, w, rfl, hv, _⟩ | ⟨p, t, w, rfl, _, h2, h3, _⟩
    · rw [List.append_assoc]; exact noBlank_var hv _
    · exact noBlank_cons h2 h3
  simp only [List.append_assoc] at h1 ⊢
  rw [fn_blanks (by simp [lrank]) _ hb0 hnb] at h1
  show arithAssig _ _ = _
  rw [arithAssig, bind_ok (skipWhitespace_eq hb0 hnb), assig_lookahead,
    mpAssig_false hform (not_assigCont_follow hb hr hf.tighter), if_neg (by simp)]
  exact h1

theorem claim_assign {bs0 vs ws u : List PTok} {p : SourcePos} {x : Str} {a : DefaultArithmetic}
    (hb0 : Blanks bs0) (hv : VarRef vs x) (hws : ∀ t ∈ ws, ∃ w, t.2 = Token.Whitespace w)
    (hu : ClaimE e b .assign u a) (hst : Starts u) :
    Claim e b .assign (bs0 ++ vs ++ ws ++ (p, .Equals) :: u) (.Assign x a) := by
  intro n bs r hn hb hr hf
  obtain ⟨n, rfl⟩ : ∃ m, n = m + 1 := ⟨n - 1, by simp at hn; omega⟩
  have heq : bs0 ++ vs ++ ws ++ (p, Token.Equals) :: u ++ bs ++ r =
      bs0 ++ (vs ++ (ws ++ (p, .Equals) :: (u ++ bs ++ r))) := by simp
  rw [heq]
  have hcont : AssigCont (ws ++ (p, .Equals) :: (u ++ bs ++ r)) :=
    ⟨ws, p, .Equals, _, rfl, hws, .inr ⟨rfl, by
      rw [List.append_assoc]; exact starts_head hst _ rfl⟩⟩
  have h2 := hu n bs r (by simp at hn ⊢; omega) hb hr
    (hf.ev (endsVar_op (starts_ne_nil hst) (by simp [lastVar])).2)
  change arithAssig _ _ = _ at h2
  show arithAssig _ _ = _
  rw [arithAssig, bind_ok (skipWhitespace_eq hb0 (noBlank_var hv _)), assig_lookahead,
    mpAssig_yes hv hcont (by simp), if_pos rfl, ← List.nil_append vs, bind_ok (arithVar_ref .nil hv),
    bind_ok (skipWhitespace_eq (blanks_of_ws hws) (noBlank_cons rfl (by simp))), next_bind_cons]
  simp only [Token.isAssigOp, if_true, fix_succ]
  refine Eq.trans (bind_ok h2) rfl

theorem compound_facts {op : Token} {mk : BinMk} (h : (op, mk) ∈ compoundOps) :
    op.isAssigOp = true ∧ op.isWs = false ∧ op ≠ .Backslash ∧
      ∀ x v, assigValue x v op = some (mk (.Var x) v) := by
  simp [compoundOps] at h
  rcases h with ⟨rfl, rfl⟩ | ⟨rfl, rfl⟩ | ⟨rfl, rfl⟩ | ⟨rfl, rfl⟩ | ⟨rfl, rfl⟩ | ⟨rfl, rfl⟩ |
    ⟨rfl, rfl⟩ | ⟨rfl, rfl⟩ | ⟨rfl, rfl⟩ | ⟨rfl, rfl⟩ <;>
  exact ⟨rfl, rfl, by simp, fun _ _ => rfl⟩

theorem claim_compound {bs0 vs ws u : List PTok} {p q : SourcePos} {x : Str} {a : DefaultArithmetic}
    {op : Token} {mk : BinMk}
    (hb0 : Blanks bs0) (hv : VarRef vs x) (hws : ∀ t ∈ ws, ∃ w, t.2 = Token.Whitespace w)
    (ho : (op, mk) ∈ compoundOps) (hu : ClaimE e b .assign u a) (hne : u ≠ []) :
    Claim e b .assign (bs0 ++ vs ++ ws ++ (p, op) :: (q, .Equals) :: u)
      (.Assign x (mk (.Var x) a)) := by
  intro n bs r hn hb hr hf
  obtain ⟨n, rfl⟩ : ∃ m, n = m + 1 := ⟨n - 1, by simp at hn; omega⟩
  have heq : bs0 ++ vs ++ ws ++ (p, op) :: (q, Token.Equals) :: u ++ bs ++ r =
      bs0 ++ (vs ++ (ws ++ (p, op) :: (q, .Equals) :: (u ++ bs ++ r))) := by simp
  rw [heq]
  obtain ⟨ho1, ho2, ho3, ho4⟩ := compound_facts ho
  have hcont : AssigCont (ws ++ (p, op) :: (q, .Equals) :: (u ++ bs ++ r)) :=
    ⟨ws, p, op, _, rfl, hws, .inl ⟨ho1, rfl⟩⟩
  have h2 := hu n bs r (by simp at hn ⊢; omega) hb hr
    (hf.ev (endsVar_op2 hne (by rw [lastVar]; exact lastVar_compound ho _ _)).2)
  change arithAssig _ _ = _ at h2
  show arithAssig _ _ = _
  rw [arithAssig, bind_ok (skipWhitespace_eq hb0 (noBlank_var hv _)), assig_lookahead,
    mpAssig_yes hv hcont (by simp), if_pos rfl, ← List.nil_append vs, bind_ok (arithVar_ref .nil hv),
    bind_ok (skipWhitespace_eq (blanks_of_ws hws) (noBlank_cons ho2 ho3)), next_bind_cons]
  simp only [ho1, if_true, fix_succ]
  rw [eat_bind, bind_ok h2, ho4]
  rfl

/-- The items of a sequence. -/
def ClaimItems (e : SourcePos) (b : B.State) (u : List PTok) (as : List DefaultArithmetic) : Prop :=
  ∀ n acc bs r, (u ++ bs ++ r).length ≤ n → Blanks bs → NoBlank r → (∀ ev, Follow .seq ev r) →
    LoopRun (arithSubstBody (ArithRec.fix n)) acc (st (u ++ bs ++ r) e b) (.ok (acc ++ as), st r e b)

theorem assig_blanks (R : ArithRec AIter B) {bs l : List PTok} (hb : Blanks bs) (hl : NoBlank l) :
    arithAssig R (st (bs ++ l) e b) = arithAssig R (st l e b) := by
  unfold arithAssig
  exact bind_congr (skip_congr hb hl)

theorem substBody_eq (R : ArithRec AIter B) (acc : List DefaultArithmetic) (l : List PTok) :
    arithSubstBody R acc (st l e b) = (arithAssig R >>= fun x => eatMaybe .Comma >>= fun c =>
      if c then pure (.cont (acc ++ [x])) else pure (.done (acc ++ [x]))) (st l e b) := by
  obtain ⟨bs, r, rfl, hb, hr⟩ := blank_split l
  unfold arithSubstBody
  rw [bind_ok (skipWhitespace_eq hb hr)]
  exact bind_congr (assig_blanks R hb hr).symm

theorem claim_items_one {u : List PTok} {a : DefaultArithmetic} (hu : ClaimE e b .assign u a) :
    ClaimItems e b u [a] := by
  intro n acc bs r hn hb hr hf
  refine .done ?_
  have h := hu n bs r hn hb hr (hf _).tighter
  change arithAssig _ _ = _ at h
  rw [substBody_eq, bind_ok h, eatMaybe_bind_no]
  · rfl
  · rcases r with _ | ⟨⟨p, t⟩, r⟩
    · simp
    · rintro h
      cases h
      have := (hf True).1 _ _ rfl 0 rfl
      simp [lrank] at this

theorem claim_items_cons {u bs1 v : List PTok} {p : SourcePos} {a : DefaultArithmetic}
    {as : List DefaultArithmetic} (hu : ClaimE e b .assign u a) (hb1 : Blanks bs1)
    (hv : ClaimItems e b v as) : ClaimItems e b (u ++ bs1 ++ (p, .Comma) :: v) (a :: as) := by
  intro n acc bs r hn hb hr hf
  have heq : u ++ bs1 ++ (p, Token.Comma) :: v ++ bs ++ r =
      u ++ bs1 ++ (p, Token.Comma) :: (v ++ bs ++ r) := by simp
  rw [heq]
  have h := hu n bs1 ((p, .Comma) :: (v ++ bs ++ r)) (by simp at hn ⊢; omega) hb1
    (noBlank_cons rfl (by simp)) (follow_cons (k := 0) rfl (by simp [lrank]) (by simp))
  change arithAssig _ _ = _ at h
  have h2 := hv n (acc ++ [a]) bs r (by simp at hn ⊢; omega) hb hr hf
  rw [List.append_assoc acc] at h2
  refine .cont ?_ ?_ h2
  · rw [substBody_eq, bind_ok h, eatMaybe_bind_yes]
    rfl
  · simp; omega

theorem follow_seq_any {ev : Prop} {r : List PTok} (h : Follow .seq ev r) (ev' : Prop) :
    Follow .seq ev' r := by
  rcases r with _ | ⟨⟨p, t⟩, r⟩
  · exact follow_nil
  · refine follow_none ?_
    cases hk : orank t with
    | none => rfl
    | some k => exact absurd (h.1 _ _ rfl k hk) (Nat.not_lt_zero _)

theorem claim_seq {u : List PTok} {as : List DefaultArithmetic} (h : ClaimItems e b u as)
    (hl : 2 ≤ as.length) : Claim e b .seq u (.Sequence as) := by
  intro n bs r hn hb hr hf
  show arithSubst _ _ = _
  unfold arithSubst
  rw [bind_ok (h n [] bs r hn hb hr (follow_seq_any hf)).loop]
  rcases as with _ | ⟨x, _ | ⟨y, as⟩⟩
  · simp at hl
  · simp at hl
  · rfl

theorem claim_seq_of_assign {u : List PTok} {a : DefaultArithmetic} (h : ClaimE e b .assign u a) :
    Claim e b .seq u a := by
  intro n bs r hn hb hr hf
  show arithSubst _ _ = _
  unfold arithSubst
  rw [bind_ok (claim_items_one h n [] bs r hn hb hr (follow_seq_any hf)).loop]
  rfl

/-! ### Everything together -/

theorem Claim.toU {lvl : Level} (hl : lvl = .unary ∨ lvl = .primary) {u : List PTok}
    {a : DefaultArithmetic} (h : Claim e b lvl u a) : ClaimU e b lvl u a := by
  unfold Claim at h
  rw [if_neg (by rcases hl with rfl | rfl <;> simp [isBin]), if_pos hl] at h
  exact h

theorem Claim.toBin {lvl : Level} (hl : isBin lvl = true) {u : List PTok}
    {a : DefaultArithmetic} (h : Claim e b lvl u a) : ClaimBin e b lvl u a := by
  unfold Claim at h
  rw [if_pos hl] at h
  exact h

theorem ClaimBin.toClaim {lvl : Level} (hl : isBin lvl = true) {u : List PTok}
    {a : DefaultArithmetic} (h : ClaimBin e b lvl u a) : Claim e b lvl u a := by
  unfold Claim
  rw [if_pos hl]
  exact h

theorem complete {lvl : Level} {u : List PTok} {a : DefaultArithmetic} (h : Expr .munch lvl u a) :
    Claim e b lvl u a := by
  refine Expr.rec (motive_1 := fun lvl v a _ => Claim e b lvl v a)
    (motive_2 := fun v as _ => ClaimItems e b v as)
    ?_ ?_ ?_ ?_ ?_ ?_ ?_ ?_ ?_ ?_ ?_ ?_ ?_ ?_ ?_ ?_ ?_ ?_ ?_ ?_ ?_ ?_ h
  · intro lvl u a h1 h2 ih
    cases lvl with
    | seq => exact claim_seq_of_assign (ih.toE (by simp [lrank, Level.tighter]))
    | assign => exact claim_assign_of_ternary h2 (ih.toE (by simp [lrank, Level.tighter]))
    | ternary => exact claim_ternary_of_or (ih.toE (by simp [lrank, Level.tighter]))
    | pow => exact claim_pow_of_unary (ih.toU (by simp [Level.tighter]))
    | unary => exact claim_unary_of_primary h2 (ih.toU (by simp [Level.tighter]))
    | primary => exact absurd rfl h1
    | or | and | bitOr | bitXor | bitAnd | eq | rel | shift | add | mult =>
      exact (claim_bin_of_tighter rfl (ih.toE (by simp [lrank, Level.tighter]))).toClaim rfl
  · intro u as _ h2 ih; exact claim_seq ih h2
  · intro bs' vs x ws p u a h1 h2 h3 h4 ih
    exact claim_assign h1 h2 h3 (ih.toE (by simp [lrank])) (expr_starts h4)
  · intro bs' vs x ws p q op mk u a h1 h2 h3 h4 h5 ih
    exact claim_compound h1 h2 h3 h4 (ih.toE (by simp [lrank])) (expr_ne h5)
  · intro u a bs1 p v b bs2 q w c _ h2 h3 h4 h5 ih1 ih2 ih3
    exact claim_ternary (ih1.toE (by simp [lrank])) h2 (ih2.toE (by simp [lrank])) h4
      (ih3.toE (by simp [lrank])) (expr_ne h5)
  · intro lvl u a bs1 op mk v b h1 _ h3 h4 h5 ih1 ih2
    have hb := isBin_of_mem h1
    refine (claim_bin h1 (ih1.toBin hb) h3 (ih2.toE ?_) (expr_starts h4) h5).toClaim hb
    cases lvl <;> simp [isBin] at hb <;> simp [lrank, Level.tighter]
  · intro u a bs1 p q v b _ h2 h3 ih1 ih2
    exact claim_pow (ih1.toU (by simp)) h2 (ih2.toE (by simp [lrank])) (expr_ne h3)
  · intro bs1 p u a h1 h2 ih
    exact claim_not h1 (ih.toU (by simp)) (starts_ne_nil (expr_starts h2))
  · intro bs1 p u a h1 h2 ih
    exact claim_bitNot h1 (ih.toU (by simp)) (starts_ne_nil (expr_starts h2))
  · intro bs1 p u a h1 h2 h3 ih
    exact claim_plus h1 (ih.toU (by simp)) (starts_ne_nil (expr_starts h2)) h3
  · intro bs1 p u a h1 h2 h3 ih
    exact claim_minus h1 (ih.toU (by simp)) (starts_ne_nil (expr_starts h2)) h3
  · intro bs1 p q u a h1 h2 ih
    exact claim_plusMinus h1 (ih.toU (by simp)) (expr_ne h2)
  · intro bs1 p q u a h1 h2 ih
    exact claim_minusPlus h1 (ih.toU (by simp)) (expr_ne h2)
  · intro bs1 p q bs2 vs x h1 h2 h3; exact claim_preIncr h1 h2 h3
  · intro bs1 p q bs2 vs x h1 h2 h3; exact claim_preDecr h1 h2 h3
  · intro bs1 p q bs2 vs x h1 h2 h3; exact claim_postIncr h1 h2 h3
  · intro bs1 p q bs2 vs x h1 h2 h3; exact claim_postDecr h1 h2 h3
  · intro bs1 vs x h1 h2; exact claim_var h1 h2
  · intro bs1 p s n h1 h2 h3; exact claim_literal h1 h2 h3
  · intro bs1 p u a bs2 q h1 h2 h3 ih; exact claim_paren h1 (ih.toE (by simp [lrank])) h3
  · intro u a _ ih; exact claim_items_one (ih.toE (by simp [lrank]))
  · intro u a bs1 p v as _ h2 h3 ih1 ih2; exact claim_items_cons (ih1.toE (by simp [lrank])) h2 ih2

theorem arithmeticSubstitution_eq {u bs r : List PTok} {a : DefaultArithmetic}
    (h : Expr .munch .seq u a) (hb : Blanks bs) (hr : NoBlank r) (hf : Follow .seq True r) :
    arithmeticSubstitution (st (u ++ bs ++ r) e b) = (.ok a, st r e b) := by
  have := (complete (e := e) (b := b) h).toE (by simp [lrank]) ((u ++ bs ++ r).length + 1) bs r
    (by omega) hb hr (follow_seq_any hf _)
  exact this

end

end Conch
