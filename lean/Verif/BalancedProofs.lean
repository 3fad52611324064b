import Verif.BalancedSpec
/-!
# Balanced scanning does what the specification says
-/
namespace Conch
open Spec

namespace Balanced

@[simp] theorem pos_def (it : AIter) : TokStream.pos it = it.pos := rfl
@[simp] theorem peek_def (it : AIter) : TokStream.peek it = (it.peek, it) := rfl
@[simp] theorem next_def (it : AIter) : TokStream.next it = it.next := rfl
@[simp] theorem len_def (it : AIter) : TokStream.len it = it.rest.length := rfl

/-- `Steps b xs b'`: the next calls yield the tokens `xs`, each at the position the scanner
reported before the call, and leave the scanner in state `b'`. -/
inductive Steps : Balanced AIter → List PTok → Balanced AIter → Prop
  | nil {b} : Steps b [] b
  | cons {b b1 b' p t xs} : b.pos = p → b.next = (some (.ok t), b1) → Steps b1 xs b' →
      Steps b ((p, t) :: xs) b'

theorem Steps.append {b b1 b2 : Balanced AIter} {xs ys : List PTok} (h : Steps b xs b1)
    (h' : Steps b1 ys b2) : Steps b (xs ++ ys) b2 := by
  induction h with
  | nil => exact h'
  | cons h1 h2 _ ih => exact .cons h1 h2 (ih h')

theorem Steps.one {b b1 : Balanced AIter} {p : SourcePos} {t : Token} (h : b.pos = p)
    (h' : b.next = (some (.ok t), b1)) : Steps b [(p, t)] b1 := .cons h h' .nil

/-- A scanner between two items: nothing escaped is pending. -/
def mk' (sk : Bool) (st : List (Token × SourcePos)) (l : List PTok) (e : SourcePos) :
    Balanced AIter :=
  { iter := ⟨l, e⟩, escaped := none, stack := st, skipLast := sk, done := false,
    pos := AIter.pos ⟨l, e⟩ }

theorem opens_closer {c : Option Token} {t c' : Token} (h : Opens c t c') : Closer c' := by
  cases h <;> simp [Closer]

theorem closer_ne {c : Token} (h : Closer c) : c ≠ .Backslash ∧ c ≠ .Dollar ∧ c ≠ .CurlyOpen ∧
    c ≠ .ParenOpen := by
  rcases h with rfl | rfl | rfl | rfl | rfl <;> simp

theorem next_close (sk : Bool) (c : Token) (p q : SourcePos) (st l e) :
    (mk' sk ((c, p) :: st) ((q, c) :: l) e).next =
      (if sk && st.isEmpty then none else some (.ok c),
        { mk' sk st l e with done := st.isEmpty }) := by
  simp [next, mk', AIter.peek, AIter.next]

theorem next_quoted (sk : Bool) (p q : SourcePos) (t : Token) (st l e) (ht : t ≠ .SingleQuote) :
    (mk' sk ((.SingleQuote, p) :: st) ((q, t) :: l) e).next =
      (some (.ok t), mk' sk ((.SingleQuote, p) :: st) l e) := by
  simp [next, mk', AIter.peek, AIter.next, Ne.symm ht]

theorem next_quoted_eof (sk : Bool) (p : SourcePos) (st e) :
    ∃ b', (mk' sk ((.SingleQuote, p) :: st) [] e).next =
      (some (.error ⟨.SingleQuote, p⟩), b') ∧ b'.iter = ⟨[], e⟩ := by
  simp [next, mk', AIter.peek, AIter.next]

/-- Outside of single quotes and at no closing token, `nextPlain` decides. -/
theorem next_eq_plain (sk : Bool) (st : List (Token × SourcePos)) (l : List PTok) (e)
    (h1 : st.head?.map (·.1) ≠ some .SingleQuote)
    (h2 : st.head?.map (·.1) ≠ l.head?.map (·.2)) :
    (mk' sk st l e).next = (mk' sk st l e).nextPlain := by
  rcases st with _ | ⟨⟨c, p⟩, st⟩
  · show (if none = l.head?.map (·.2) then _ else _) = _
    exact (if_neg h2).trans rfl
  · show (if some c = l.head?.map (·.2) then _ else _) = _
    refine (if_neg h2).trans ?_
    simp at h1
    cases c <;> first | rfl | exact absurd rfl h1

theorem plain_ordinary (sk : Bool) (st : List (Token × SourcePos)) (q : SourcePos) (t : Token)
    (l : List PTok) (e) (ho : Ordinary (st.head?.map (·.1)) t) :
    (mk' sk st ((q, t) :: l) e).nextPlain =
      (some (.ok t), { mk' sk st l e with done := st.isEmpty }) := by
  obtain ⟨h1, h2, h3⟩ := ho
  cases t with
  | Backslash => exact absurd rfl h1
  | Dollar => exact absurd rfl h2
  | Backtick => exact absurd .backtick (h3 _)
  | DoubleQuote => exact absurd .dquote (h3 _)
  | ParenOpen => exact absurd .paren (h3 _)
  | SingleQuote =>
    by_cases h : st.head?.map (·.1) = some .DoubleQuote
    · rcases st with _ | ⟨x, st⟩
      · cases h
      · simp at h
        simp [nextPlain, mk', AIter.next, h]
    · exact absurd (.squote h) (h3 _)
  | _ => simp [nextPlain, mk', AIter.next]

theorem plain_opens (sk : Bool) (st : List (Token × SourcePos)) (q : SourcePos) (t c' : Token)
    (l : List PTok) (e) (ho : Opens (st.head?.map (·.1)) t c') :
    (mk' sk st ((q, t) :: l) e).nextPlain = (some (.ok t), mk' sk ((c', q) :: st) l e) := by
  cases ho with
  | squote h =>
    show (_, if st.head?.map (·.1) = some .DoubleQuote then _ else _) = _
    rw [if_neg h]; rfl
  | _ => simp [nextPlain, mk', AIter.next, AIter.pos]

theorem plain_brace (sk : Bool) (st : List (Token × SourcePos)) (p q : SourcePos)
    (l : List PTok) (e) :
    (mk' sk st ((p, .Dollar) :: (q, .CurlyOpen) :: l) e).nextPlain =
      (some (.ok .Dollar), mk' sk ((.CurlyClose, q) :: st) ((q, .CurlyOpen) :: l) e) := by
  simp [nextPlain, mk', AIter.next, AIter.pos, AIter.peek]

theorem plain_dollar (sk : Bool) (st : List (Token × SourcePos)) (p : SourcePos)
    (l : List PTok) (e) (h : l.head?.map (·.2) ≠ some .CurlyOpen) :
    (mk' sk st ((p, .Dollar) :: l) e).nextPlain =
      (some (.ok .Dollar), { mk' sk st l e with
        done := st.isEmpty && l.head?.map (·.2) != some .ParenOpen }) := by
  show (_, if l.head?.map (·.2) = some .CurlyOpen then _ else
    if l.head?.map (·.2) = some .ParenOpen then _ else _) = _
  rw [if_neg h]
  by_cases h' : l.head?.map (·.2) = some .ParenOpen
  · rw [if_pos h', h']; simp [mk']
  · rw [if_neg h']
    have : (l.head?.map (·.2) != some .ParenOpen) = true := by simpa using h'
    rw [this]; simp [mk']

theorem plain_escape (sk : Bool) (st : List (Token × SourcePos)) (p : SourcePos) (t : PTok)
    (l : List PTok) (e) :
    (mk' sk st ((p, .Backslash) :: t :: l) e).nextPlain =
      (some (.ok .Backslash),
        { mk' sk st l e with escaped := some (t.2, AIter.pos ⟨l, e⟩), done := st.isEmpty,
                             pos := t.1 }) := by
  simp [nextPlain, mk', AIter.next, AIter.pos]

theorem plain_backslash_eof (sk : Bool) (st : List (Token × SourcePos)) (p : SourcePos) (e) :
    (mk' sk st [(p, .Backslash)] e).nextPlain =
      (some (.ok .Backslash), { mk' sk st [] e with done := st.isEmpty }) := by
  simp [nextPlain, mk', AIter.next, AIter.pos]

theorem next_escaped (b : Balanced AIter) (t : Token) (p : SourcePos)
    (h : b.escaped = some (t, p)) :
    b.next = (some (.ok t), { b with escaped := none, pos := p }) := by
  unfold next; rw [h]

theorem head_ne_of {c : Token} {p : SourcePos} {st : List (Token × SourcePos)}
    (hc : c ≠ .SingleQuote) : ((c, p) :: st).head?.map (·.1) ≠ some .SingleQuote := by
  simpa using hc

/-- Inside a region, its body is yielded token by token. -/
theorem body_steps {c : Token} {xs : List PTok} (hb : Body c xs) (hcl : Closer c) (sk : Bool)
    (p : SourcePos) (st) (r : List PTok) (e) (hr : r.head?.map (·.2) ≠ some .CurlyOpen) :
    Steps (mk' sk ((c, p) :: st) (xs ++ r) e) xs (mk' sk ((c, p) :: st) r e) := by
  induction hb generalizing p st r with
  | nil => exact .nil
  | quoted h1 _ ih => exact .cons rfl (next_quoted _ _ _ _ _ _ _ h1) (ih hcl p st r hr)
  | plain h1 h2 h3 _ ih =>
    refine .cons rfl ?_ (ih hcl p st r hr)
    rw [next_eq_plain _ _ _ _ (head_ne_of h1) (by simpa using Ne.symm h2)]
    exact plain_ordinary _ _ _ _ _ _ h3
  | @escape c p' t xs h1 _ ih =>
    refine .cons rfl ?_ (.cons ?_ (next_escaped (b := { mk' sk ((c, p) :: st) (xs ++ r) e with
      escaped := some (t.2, AIter.pos ⟨xs ++ r, e⟩), done := false, pos := t.1 }) _ _ rfl) (ih hcl p st r hr))
    · rw [next_eq_plain _ _ _ _ (head_ne_of h1) (by simpa using (closer_ne hcl).1)]
      exact plain_escape _ _ _ _ _ _
    · rfl
  | @nested c c' o xs q ys h1 h2 h3 _ _ ih1 ih2 =>
    have hcl' := opens_closer h3
    rw [List.cons_append, List.append_assoc, List.cons_append]
    refine .cons rfl ?_ ((ih1 hcl' o.1 ((c, p) :: st) ((q, c') :: (ys ++ r)) ?_).append
      (.cons rfl ?_ (ih2 hcl p st r hr)))
    · rw [next_eq_plain _ _ _ _ (head_ne_of h1) (by simpa using Ne.symm h2)]
      exact plain_opens _ _ _ _ _ _ _ h3
    · simpa using (closer_ne hcl').2.2.1
    · rw [next_close]; simp [mk']
  | @brace c p' q r' xs ys h1 _ _ ih1 ih2 =>
    rw [List.cons_append, List.cons_append, List.append_assoc, List.cons_append]
    refine .cons rfl (b1 := mk' sk ((.CurlyClose, q) :: (c, p) :: st)
        ((q, .CurlyOpen) :: (xs ++ (r', .CurlyClose) :: (ys ++ r))) e) ?_
      (.cons rfl (b1 := mk' sk ((.CurlyClose, q) :: (c, p) :: st) _ e) ?_
      ((ih1 (by simp [Closer]) q ((c, p) :: st) ((r', .CurlyClose) :: (ys ++ r)) (by simp)).append
      (.cons rfl ?_ (ih2 hcl p st r hr))))
    · rw [next_eq_plain _ _ _ _ (head_ne_of h1) (by simpa using (closer_ne hcl).2.1)]
      exact plain_brace _ _ _ _ _ _
    · rw [next_eq_plain _ _ _ _ (by simp) (by simp)]
      rw [plain_ordinary _ _ _ _ _ _ ⟨by simp, by simp, fun c' h => by cases h⟩]
      simp [mk']
    · rw [next_close]; simp [mk']
  | @dollar c p' xs h1 h2 _ ih =>
    refine .cons rfl ?_ (ih hcl p st r hr)
    rw [List.cons_append, next_eq_plain _ _ _ _ (head_ne_of h1)
      (by simpa using (closer_ne hcl).2.1), plain_dollar]
    · simp [mk']
    · cases xs with
      | nil => exact hr
      | cons x xs => exact h2

/-- What an unclosed region does: it yields everything and then the error. -/
theorem unclosed_steps {c : Token} {p : SourcePos} {l : List PTok} {err : UnmatchedError}
    (hu : Unclosed c p l err) (hcl : Closer c) (sk : Bool) (st) (e) :
    ∃ b b', Steps (mk' sk ((c, p) :: st) l e) l b ∧ b.next = (some (.error err), b') ∧
      b'.iter = ⟨[], e⟩ := by
  have eof : ∀ (c : Token) (p : SourcePos) (st), Closer c → ∃ b',
      (mk' sk ((c, p) :: st) [] e).next = (some (.error ⟨opener c, p⟩), b') ∧
      b'.iter = ⟨[], e⟩ := by
    intro c p st hc
    by_cases h : c = .SingleQuote
    · subst h; exact next_quoted_eof _ _ _ _
    · rw [next_eq_plain _ _ _ _ (by simpa using h) (by simp)]
      rcases hc with rfl | rfl | rfl | rfl | rfl
      · exact absurd rfl h
      all_goals simp [nextPlain, mk', AIter.next, unmatched, opener]
  induction hu generalizing st with
  | @here c p l hb =>
    obtain ⟨b', h1, h2⟩ := eof c p st hcl
    exact ⟨_, b', by simpa using body_steps hb hcl sk p st [] e (by simp), h1, h2⟩
  | @backslash c p xs q hc hb =>
    obtain ⟨b', h1, h2⟩ := eof c p st hcl
    refine ⟨_, b', (body_steps hb hcl sk p st _ e (by simp)).append (.one rfl ?_), h1, h2⟩
    rw [next_eq_plain _ _ _ _ (head_ne_of hc) (by simpa using (closer_ne hcl).1),
      plain_backslash_eof]
    simp [mk']
  | @inner c c' p xs o l e' hc ho hb hop _ ih =>
    obtain ⟨b, b', h1, h2, h3⟩ := ih (opens_closer hop) ((c, p) :: st)
    refine ⟨b, b', (body_steps hb hcl sk p st _ e ?_).append (.cons rfl ?_ h1), h2, h3⟩
    · have : ∀ {c t c'}, Opens c t c' → t ≠ .CurlyOpen := by
        intro c t c' h; cases h <;> simp
      simpa using this hop
    · rw [next_eq_plain _ _ _ _ (head_ne_of hc) (by simpa using Ne.symm ho)]
      exact plain_opens _ _ _ _ _ _ _ hop
  | @innerBrace c p xs a q l e' hc hb _ ih =>
    obtain ⟨b, b', h1, h2, h3⟩ := ih (by simp [Closer]) ((c, p) :: st)
    refine ⟨b, b', (body_steps hb hcl sk p st _ e (by simp)).append
      (.cons rfl (b1 := mk' sk ((.CurlyClose, q) :: (c, p) :: st) ((q, .CurlyOpen) :: l) e) ?_
      (.cons rfl ?_ h1)),
      h2, h3⟩
    · rw [next_eq_plain _ _ _ _ (head_ne_of hc) (by simpa using (closer_ne hcl).2.1)]
      exact plain_brace _ _ _ _ _ _
    · rw [next_eq_plain _ _ _ _ (by simp) (by simp)]
      rw [plain_ordinary _ _ _ _ _ _ ⟨by simp, by simp, fun c' h => by cases h⟩]
      simp [mk']

end Balanced
end Conch
