import Verif.PropsPos
/-!
# Properties C27, C28, C37: blanks, comments, reserved words, function look-ahead
-/
namespace Conch
open Spec

section
variable {B : Builder}

/-- Calling `m` in the state `s` returns `r`, leaves the tokens `l` (with their positions) and the
builder state `b`. -/
def Gives (m : Method) (s : PSt CIter B) (r : Res B.Error (m.Ret B.toBTypes)) (l : List PTok)
    (b : B.State) : Prop :=
  (m.run s).1 = r ∧ (m.run s).2.rest = l ∧ (m.run s).2.b = b

theorem gives_of_eq {m : Method} {s : PSt CIter B} {r l b e}
    (h : m.run (st s.rest s.it.1.abs.endPos s.b) = (r, st l e b)) : Gives m s r l b := by
  have h1 := Method.run_abs m s
  change m.run (st s.rest s.it.1.abs.endPos s.b) = _ at h1
  rw [h, Prod.mk.injEq] at h1
  refine ⟨h1.1.symm, ?_, ?_⟩
  · exact (congrArg (fun x => x.it.rest) h1.2).symm
  · exact (congrArg (fun x => x.b) h1.2).symm

/-- C28: every list of tokens is blanks followed by something that does not start with a blank. -/
theorem C28_blanks_split (l : List PTok) : ∃ bs r, l = bs ++ r ∧ Blanks bs ∧ NoBlank r :=
  blank_split l

/-- C28: `skip_whitespace` consumes exactly the blanks. -/
theorem C28_skip_whitespace (s : PSt CIter B) (bs r : List PTok) (h : s.rest = bs ++ r)
    (hb : Blanks bs) (hr : NoBlank r) : Gives .skipWhitespace s (.ok ()) r s.b := by
  refine gives_of_eq (e := s.it.1.abs.endPos) ?_
  rw [h]
  exact skipWhitespace_eq hb hr

/-- C28: if a newline or a comment comes after the blanks, `newline` consumes it and returns the
comment (`Line`: its text from `#` up to, not including, the newline). -/
theorem C28_newline_some (s : PSt CIter B) (n : Nl) (rest : List PTok) (h : Line s.rest n rest) :
    Gives .newline s (.ok (some n)) rest s.b :=
  gives_of_eq (e := s.it.1.abs.endPos) (newline_eq_line h)

theorem Spec.Line.not_none {bs r : List PTok} {n : Nl} {rest : List PTok} (hb : Blanks bs)
    (hr : NoBlank r) (hn : NoLineStart r) : ¬ Line (bs ++ r) n rest := by
  intro h
  have h1 := newline_eq_line (B := EmptyBuilder) (e := .new) (b := ()) h
  rw [newline_eq_none hb hr hn] at h1
  simp at h1

/-- C28: otherwise `newline` consumes the blanks only and returns nothing. -/
theorem C28_newline_none (s : PSt CIter B) (h : NoLine s.rest) :
    ∃ bs r, s.rest = bs ++ r ∧ Blanks bs ∧ NoBlank r ∧ Gives .newline s (.ok none) r s.b := by
  rcases line_or_not s.rest with ⟨n, rest, h'⟩ | ⟨bs, r, heq, h1, h2, h3⟩
  · exact absurd h' (h n rest)
  · refine ⟨bs, r, heq, h1, h2, gives_of_eq (e := s.it.1.abs.endPos) ?_⟩
    rw [heq]
    exact newline_eq_none h1 h2 h3

/-- C28: `linebreak` consumes as many newlines and comments as there are and the blanks after
them, and returns the comments. -/
theorem C28_linebreak (s : PSt CIter B) : ∃ ns bs r, Lines s.rest ns (bs ++ r) ∧ Blanks bs ∧
    NoBlank r ∧ NoLine r ∧ Gives .linebreak s (.ok ns) r s.b := by
  obtain ⟨ns, bs, r, h1, h2, h3, h4⟩ := lines_split s.rest
  refine ⟨ns, bs, r, h1, h2, h3, ?_, gives_of_eq (e := s.it.1.abs.endPos) (linebreak_eq h1 h2 h3 h4)⟩
  intro n rest h
  exact Spec.Line.not_none (bs := []) .nil h3 h4 h

/-- The text of a comment is the text of its tokens. -/
theorem Spec.Line.comment_eq {l rest : List PTok} {n : Nl} {c : Str} (h : Line l n rest)
    (hc : n.comment = some c) : ∃ bs cs, Blanks bs ∧
      (l = bs ++ cs ++ rest ∧ rest = [] ∨ ∃ q, l = bs ++ cs ++ (q, .Newline) :: rest) ∧
      (∀ t ∈ cs, t.2 ≠ .Newline) ∧ cs.head?.map Prod.snd = some .Pound ∧
      c = (cs.map (fun t => t.2.asStr)).flatten := by
  cases h with
  | newline => simp at hc
  | @comment bs q cs r rest hb hn =>
    cases hc
    refine ⟨bs, (q, .Pound) :: cs, hb, .inr ⟨r, rfl⟩, ?_, rfl, ?_⟩
    · intro t ht
      rcases List.mem_cons.1 ht with rfl | ht
      · simp
      · exact hn t ht
    · simp [concatTokens, List.flatMap, Function.comp_def]
  | @lastComment bs q cs hb hn =>
    cases hc
    refine ⟨bs, (q, .Pound) :: cs, hb, .inl ⟨by simp, rfl⟩, ?_, rfl, ?_⟩
    · intro t ht
      rcases List.mem_cons.1 ht with rfl | ht
      · simp
      · exact hn t ht
    · simp [concatTokens, List.flatMap, Function.comp_def]

/-- C28: the text of a comment that `newline` returns is the text of its tokens, which are those of
the source, from the `#` up to the end of the line. -/
theorem C28_comment_verbatim (s : PSt CIter B) (n : Nl) (rest : List PTok) (b' : B.State) (c : Str)
    (h : Gives .newline s (.ok (some n)) rest b') (hc : n.comment = some c) : ∃ bs cs, Blanks bs ∧
      (s.rest = bs ++ cs ++ rest ∧ rest = [] ∨ ∃ q, s.rest = bs ++ cs ++ (q, .Newline) :: rest) ∧
      (∀ t ∈ cs, t.2 ≠ .Newline) ∧ cs.head?.map Prod.snd = some .Pound ∧
      c = (cs.map (fun t => t.2.asStr)).flatten := by
  obtain ⟨g1, g2, g3⟩ := h
  rcases line_or_not s.rest with ⟨n', rest', h'⟩ | ⟨bs, r, heq, h1, h2, h3⟩
  · obtain ⟨k1, k2, -⟩ := C28_newline_some s n' rest' h'
    rw [k1] at g1
    rw [k2] at g2
    cases g1
    subst g2
    exact h'.comment_eq hc
  · have : NoLine s.rest := by
      intro n' rest' h'
      rw [heq] at h'
      exact h'.not_none h1 h2 h3
    obtain ⟨_, _, _, _, _, k1, -⟩ := C28_newline_none s this
    rw [k1] at g1
    cases g1


/-! ## Reserved words -/

/-- C27: `peek_reserved_word` skips the blanks, consumes nothing else, and reports the word `w` iff
it is one of the given ones and the next token is that word, followed by a delimiter or the end. -/
theorem C27_peek_reserved_word (s : PSt CIter B) (ws : List Str) (bs r : List PTok) (hne : ws ≠ [])
    (h : s.rest = bs ++ r) (hb : Blanks bs) (hr : NoBlank r) :
    ∃ o, Gives (.peekReservedWord ws) s (.ok o) r s.b ∧
      ∀ w, o = some w ↔ w ∈ ws ∧ WordAt r w := by
  by_cases hw : ∃ w ∈ ws, WordAt r w
  · obtain ⟨w, h1, h2⟩ := hw
    refine ⟨some w, gives_of_eq (e := s.it.1.abs.endPos) ?_, ?_⟩
    · rw [h]; exact peekReservedWord_some hb hr h1 h2
    · intro w'
      constructor
      · rintro ⟨⟩; exact ⟨h1, h2⟩
      · rintro ⟨-, h3⟩
        obtain ⟨p, r1, h4, -⟩ := h2
        obtain ⟨p', r2, h5, -⟩ := h3
        rcases h4 with h4 | h4 <;> rcases h5 with h5 | h5 <;> rw [h4] at h5 <;> cases h5 <;> rfl
  · refine ⟨none, gives_of_eq (e := s.it.1.abs.endPos) ?_, ?_⟩
    · rw [h]; exact peekReservedWord_none hne hb hr (fun w h1 h2 => hw ⟨w, h1, h2⟩)
    · intro w
      constructor
      · intro h; cases h
      · intro h; exact absurd ⟨w, h⟩ hw

/-- C27: with no words given nothing is reported and nothing consumed. -/
theorem C27_peek_no_words (s : PSt CIter B) :
    Gives (.peekReservedWord []) s (.ok none) s.rest s.b := ⟨rfl, rfl, rfl⟩

theorem gives_state {m : Method} {s : PSt CIter B} {r l b} (h : Gives m s r l b) :
    ∃ e, m.run (st s.rest s.it.1.abs.endPos s.b) = (r, st l e b) := by
  obtain ⟨h1, h2, h3⟩ := h
  refine ⟨(m.run s).2.it.1.abs.endPos, ?_⟩
  have := Method.run_abs m s
  change m.run (st s.rest s.it.1.abs.endPos s.b) = _ at this
  rw [this, h1, ← h2, ← h3]
  rfl

/-- C27: `reserved_word` succeeds exactly when `peek_reserved_word` reports a word, and then
consumes that one token. -/
theorem C27_reserved_word (s : PSt CIter B) (ws : List Str) (bs r : List PTok) (hne : ws ≠ [])
    (h : s.rest = bs ++ r) (hb : Blanks bs) (hr : NoBlank r) :
    (∀ w ∈ ws, WordAt r w → Gives (.reservedWord ws) s (.ok (some w)) r.tail s.b) ∧
    ((∀ w ∈ ws, ¬ WordAt r w) → Gives (.reservedWord ws) s (.ok none) r s.b) := by
  constructor
  · intro w h1 h2
    refine gives_of_eq (e := s.it.1.abs.endPos) ?_
    show reservedWord ws _ = _
    unfold reservedWord
    rw [h, bind_ok (peekReservedWord_some hb hr h1 h2)]
    obtain ⟨p, r, rfl | rfl, -⟩ := h2 <;> rfl
  · intro h1
    refine gives_of_eq (e := s.it.1.abs.endPos) ?_
    show reservedWord ws _ = _
    unfold reservedWord
    rw [h, bind_ok (peekReservedWord_none hne hb hr h1)]
    rfl

/-- C27: `peek_reserved_token`, for tokens other than whitespace, skips the blanks, consumes nothing
else, and reports `t` iff it is one of the given tokens, comes next, and is followed by a delimiter
or the end. -/
theorem C27_peek_reserved_token (s : PSt CIter B) (ts : List Token) (bs r : List PTok)
    (hne : ts ≠ []) (hws : ∀ t ∈ ts, t.isWs = false) (h : s.rest = bs ++ r) (hb : Blanks bs)
    (hr : NoBlank r) :
    ∃ o, Gives (.peekReservedToken ts) s (.ok o) r s.b ∧
      ∀ t, o = some t ↔ t ∈ ts ∧ TokenAt r t := by
  by_cases hw : ∃ t ∈ ts, TokenAt r t
  · obtain ⟨t, h1, h2⟩ := hw
    refine ⟨some t, gives_of_eq (e := s.it.1.abs.endPos) ?_, ?_⟩
    · rw [h]; exact peekReservedToken_some hws hb hr h1 h2
    · intro t'
      constructor
      · rintro ⟨⟩; exact ⟨h1, h2⟩
      · rintro ⟨-, h3⟩
        obtain ⟨p, r1, h4, -⟩ := h2
        obtain ⟨p', r2, h5, -⟩ := h3
        rw [h4] at h5; cases h5; rfl
  · refine ⟨none, gives_of_eq (e := s.it.1.abs.endPos) ?_, ?_⟩
    · rw [h]; exact peekReservedToken_none hne hws hb hr (fun w h1 h2 => hw ⟨w, h1, h2⟩)
    · intro w
      constructor
      · intro h; cases h
      · intro h; exact absurd ⟨w, h⟩ hw

/-- C27: when whitespace is one of the given tokens, `peek_reserved_token` first looks without
skipping blanks; if it finds nothing there it skips them and looks again. -/
theorem C27_peek_reserved_token_whitespace (s : PSt CIter B) (ts : List Token)
    (hws : ∃ t ∈ ts, t.isWs = true) :
    (∀ t ∈ ts, TokenAt s.rest t → Gives (.peekReservedToken ts) s (.ok (some t)) s.rest s.b) ∧
    ((∀ t ∈ ts, ¬ TokenAt s.rest t) → ∀ bs r, s.rest = bs ++ r → Blanks bs → NoBlank r →
      ∃ o, Gives (.peekReservedToken ts) s (.ok o) r s.b ∧
        ∀ t, o = some t ↔ t ∈ ts ∧ TokenAt r t) := by
  obtain ⟨u, hu, hws⟩ := hws
  have hne : ¬ ts.isEmpty = true := by simp; rintro rfl; simp at hu
  have hany : ts.any Token.isWs = true := List.any_eq_true.2 ⟨u, hu, hws⟩
  -- one try, on any list
  have try1 : ∀ (l : List PTok) (e : SourcePos) (b : B.State) (n : Nat) (t : Token), t ∈ ts →
      TokenAt l t → peekReservedTokenTries ts (n + 1) (st l e b) = (.ok (some t), st l e b) := by
    intro l e b n t h1 h2
    unfold peekReservedTokenTries
    rw [bind_ok (lookahead_eq (mpReservedToken_it ts _)), (mpReservedToken_val ts _ l t).2 ⟨h1, h2⟩]
    rfl
  have try2 : ∀ (l bs r : List PTok) (e : SourcePos) (b : B.State) (n : Nat), l = bs ++ r →
      Blanks bs → NoBlank r → (∀ t ∈ ts, ¬ TokenAt l t) →
      peekReservedTokenTries ts (n + 1) (st l e b) = peekReservedTokenTries ts n (st r e b) ∨
      (l = [] ∧ peekReservedTokenTries ts (n + 1) (st l e b) = (.ok none, st l e b)) := by
    intro l bs r e b n hl hb hr hno
    unfold peekReservedTokenTries
    rw [bind_ok (lookahead_eq (mpReservedToken_it ts _))]
    cases h' : (mpReservedToken (I := AIter) ts (AMultipeek.mk ⟨l, e⟩ (l.map (·.2)))).1 with
    | none =>
      left
      show (skipWhitespace >>= fun _ => peekReservedTokenTries ts n) _ = _
      rw [hl, bind_ok (skipWhitespace_eq hb hr)]
      cases n <;> rfl
    | some o =>
      cases o with
      | none =>
        right
        refine ⟨?_, rfl⟩
        unfold mpReservedToken at h'
        simp only [TokStream.mpNext] at h'
        rcases l with _ | ⟨⟨p, v⟩, _ | ⟨x, l⟩⟩
        · rfl
        · simp at h'; split at h' <;> simp at h'
        · simp only [List.map_cons, List.head?_cons, List.tail_cons] at h'
          split at h'
          · split at h' <;> simp at h'
          · simp at h'
      | some t =>
        obtain ⟨h1, h2⟩ := (mpReservedToken_val ts _ l t).1 h'
        exact absurd h2 (hno t h1)
  constructor
  · intro t h1 h2
    refine gives_of_eq (e := s.it.1.abs.endPos) ?_
    show peekReservedToken ts _ = _
    unfold peekReservedToken
    rw [if_neg hne, if_pos hany]
    exact try1 _ _ _ _ _ h1 h2
  · intro hno bs r heq hb hr
    have key : ∃ o, peekReservedToken ts (st s.rest s.it.1.abs.endPos s.b) =
        (.ok o, st r s.it.1.abs.endPos s.b) ∧ ∀ t, o = some t ↔ t ∈ ts ∧ TokenAt r t := by
      unfold peekReservedToken
      rw [if_neg hne, if_pos hany]
      rcases try2 s.rest bs r s.it.1.abs.endPos s.b 1 heq hb hr hno with h | ⟨h1, h⟩
      · rw [h]
        by_cases hw : ∃ t ∈ ts, TokenAt r t
        · obtain ⟨t, h1, h2⟩ := hw
          refine ⟨some t, try1 _ _ _ _ _ h1 h2, ?_⟩
          intro t'
          constructor
          · rintro ⟨⟩; exact ⟨h1, h2⟩
          · rintro ⟨-, h3⟩
            obtain ⟨p, r1, h4, -⟩ := h2
            obtain ⟨p', r2, h5, -⟩ := h3
            rw [h4] at h5; cases h5; rfl
        · refine ⟨none, ?_, ?_⟩
          · rcases try2 r [] r s.it.1.abs.endPos s.b 0 rfl .nil hr
              (fun t h1 h2 => hw ⟨t, h1, h2⟩) with h | ⟨h1, h⟩ <;> rw [h]
            rfl
          · intro w
            constructor
            · intro h; cases h
            · intro h; exact absurd ⟨w, h⟩ hw
      · rw [heq] at h1
        obtain ⟨rfl, rfl⟩ := List.append_eq_nil_iff.1 h1
        rw [h, heq]
        refine ⟨none, rfl, ?_⟩
        intro t
        simp [TokenAt]
    obtain ⟨o, h1, h2⟩ := key
    exact ⟨o, gives_of_eq h1, h2⟩

/-! ## Function declarations -/

/-- What makes the parser try a function declaration: the word `function`, or a name and an opening
parenthesis with at most one whitespace token between them. -/
inductive Spec.FunctionStart : List PTok → Prop
  | keyword {l} : WordAt l FUNCTION → FunctionStart l
  | name {p n q r} : FunctionStart ((p, .Name n) :: (q, .ParenOpen) :: r)
  | nameWs {p n q w o r} :
      FunctionStart ((p, .Name n) :: (q, .Whitespace w) :: (o, .ParenOpen) :: r)

theorem mpFunction_val (it : AIter) (l : List PTok) :
    (mpFunction (I := AIter) (AMultipeek.mk it (l.map (·.2)))).1 = true ↔
      (∃ p n q r, l = (p, .Name n) :: (q, .ParenOpen) :: r) ∨
      (∃ p n q w o r, l = (p, .Name n) :: (q, .Whitespace w) :: (o, .ParenOpen) :: r) := by
  unfold mpFunction
  simp only [TokStream.mpNext]
  rcases l with _ | ⟨⟨p, t⟩, _ | ⟨⟨q, u⟩, _ | ⟨⟨o, v⟩, l⟩⟩⟩
  · simp
  · cases t <;> simp [Token.isName]
  · cases t <;> simp [Token.isName, Token.isWs]
    cases u <;> simp
  · cases t <;> simp [Token.isName, Token.isWs]
    cases u <;> simp

/-- C37: `maybe_function_declaration` returns `Ok(None)` iff no function declaration starts after
the blanks; then the blanks are all it consumed, and the builder was not called. -/
theorem C37_probe_consumes_nothing (s : PSt CIter B) (bs r : List PTok) (h : s.rest = bs ++ r)
    (hb : Blanks bs) (hr : NoBlank r) :
    ((Method.maybeFunctionDeclaration.run s).1 = .ok none ↔ ¬ FunctionStart r) ∧
    ((Method.maybeFunctionDeclaration.run s).1 = .ok none →
      Gives .maybeFunctionDeclaration s (.ok none) r s.b) := by
  have yes : ¬ FunctionStart r → Gives .maybeFunctionDeclaration s (.ok none) r s.b := by
    intro hn
    refine gives_of_eq (e := s.it.1.abs.endPos) ?_
    show maybeFunctionDeclaration (Rec.fix _) _ = _
    unfold maybeFunctionDeclaration
    rw [h, bind_ok (peekReservedWord_none (by simp) hb hr (fun w hw h' => ?_))]
    · rw [if_neg (by simp), lookahead_bind (mpFunction_it _), if_neg]
      · rfl
      · rw [mpFunction_val]
        rintro (⟨p, n, q, r', rfl⟩ | ⟨p, n, q, w, o, r', rfl⟩)
        · exact hn .name
        · exact hn .nameWs
    · simp at hw; subst hw; exact hn (.keyword h')
  have no : FunctionStart r → (Method.maybeFunctionDeclaration.run s).1 ≠ .ok none := by
    intro hf hcon
    have h1 := Method.run_abs .maybeFunctionDeclaration s
    rw [hcon] at h1
    generalize (Method.maybeFunctionDeclaration.run s).2.abs = s' at h1
    have h2 : s.abs = st (bs ++ r) s.it.1.abs.endPos s.b := by rw [← h]; rfl
    rw [h2] at h1
    change maybeFunctionDeclaration (Rec.fix _) _ = _ at h1
    have fin : ∀ (R : Rec AIter B) (x : PSt AIter B),
        (functionDeclaration R >>= fun c => pure (some c)) x ≠ (.ok none, s') := by
      intro R x
      show P.bind _ _ _ ≠ _
      unfold P.bind
      split <;> simp [pure_eq]
    unfold maybeFunctionDeclaration at h1
    by_cases hw : WordAt r FUNCTION
    · rw [bind_ok (peekReservedWord_some hb hr (by simp) hw), if_pos (by simp)] at h1
      exact fin _ _ h1
    · rw [bind_ok (peekReservedWord_none (by simp) hb hr (fun w hw' h' => ?_)), if_neg (by simp),
        lookahead_bind (mpFunction_it _), if_pos] at h1
      · exact fin _ _ h1
      · rw [mpFunction_val]
        cases hf with
        | keyword h => exact absurd h hw
        | name => exact .inl ⟨_, _, _, _, rfl⟩
        | nameWs => exact .inr ⟨_, _, _, _, _, _, rfl⟩
      · simp at hw'; subst hw'; exact hw h'
  refine ⟨⟨fun h1 h2 => no h2 h1, fun h => (yes h).1⟩, fun h => yes fun h2 => no h2 h⟩

end


/-! ## Concrete cases -/

/-- The hypotheses of the theorems on blanks are met: a blank, an escaped newline and a word. -/
example : (parserOf " \\\n do;").rest = [(⟨0, 1, 1⟩, .Whitespace [' ']), (⟨1, 1, 2⟩, .Backslash),
      (⟨2, 1, 3⟩, .Newline), (⟨3, 2, 1⟩, .Whitespace [' '])] ++
      [(⟨4, 2, 2⟩, .Name DO), (⟨6, 2, 4⟩, .Semi)] ∧
    Blanks [(⟨0, 1, 1⟩, .Whitespace [' ']), (⟨1, 1, 2⟩, .Backslash),
      (⟨2, 1, 3⟩, .Newline), (⟨3, 2, 1⟩, .Whitespace [' '])] ∧
    NoBlank [(⟨4, 2, 2⟩, .Name DO), (⟨6, 2, 4⟩, .Semi)] ∧
    WordAt [(⟨4, 2, 2⟩, .Name DO), (⟨6, 2, 4⟩, .Semi)] DO :=
  ⟨by decide +kernel, .ws (.escaped (.ws .nil)), noBlank_cons rfl (by simp),
    wordAt_cons.2 ⟨.inl rfl, endsWord_cons.2 rfl⟩⟩

/-- A word followed by a quote is not a reserved word: `do""`. -/
example (p q r : SourcePos) :
    ¬ WordAt [(p, .Name DO), (q, .DoubleQuote), (r, .DoubleQuote)] DO := by
  rw [wordAt_cons, endsWord_cons]; simp [Token.isWordDelimiter]

/-- The start of a function declaration, and one that is not. -/
example : FunctionStart (parserOf "f ( )").rest ∧ ¬ FunctionStart (parserOf "f; (").rest := by
  have h1 : (parserOf "f ( )").rest = [(⟨0, 1, 1⟩, .Name ['f']), (⟨1, 1, 2⟩, .Whitespace [' ']),
    (⟨2, 1, 3⟩, .ParenOpen), (⟨3, 1, 4⟩, .Whitespace [' ']), (⟨4, 1, 5⟩, .ParenClose)] := by
    decide +kernel
  have h2 : (parserOf "f; (").rest = [(⟨0, 1, 1⟩, .Name ['f']), (⟨1, 1, 2⟩, .Semi),
    (⟨2, 1, 3⟩, .Whitespace [' ']), (⟨3, 1, 4⟩, .ParenOpen)] := by decide +kernel
  rw [h1, h2]
  refine ⟨.nameWs, ?_⟩
  rintro (h | _ | _)
  rw [wordAt_cons] at h
  simp [FUNCTION] at h

end Conch
