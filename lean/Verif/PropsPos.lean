import Verif.PartPos
/-!
# Property C18: positions in errors
-/
namespace Conch
open Spec

theorem Spec.Part.suffix {it0 : AIter} {l l' : List PTok} {e : SourcePos} (h : Part it0 ⟨l, e⟩)
    (hs : l' <:+ l) : Part it0 ⟨l', e⟩ := by
  obtain ⟨xs, rfl⟩ := hs
  induction xs with
  | nil => exact h
  | cons x xs ih => exact ih h.tail

theorem Spec.Part.trans {it0 it1 it : AIter} (h : Part it0 it1) (h' : Part it1 it) : Part it0 it := by
  induction h' with
  | all => exact h
  | tail _ ih => exact ih.tail
  | backticks _ hb h1 h2 ih => exact ih.backticks hb h1 h2
  | hereRest _ h1 h2 ih => exact ih.hereRest h1 h2
  | hereBody _ h1 h2 ih => exact ih.hereBody h1 h2

theorem Spec.KeywordAt.suffix {ws : List Str} {l r : List PTok} (h : KeywordAt ws l r) :
    r <:+ l := by
  obtain ⟨bs, p, w, -, -, rfl | rfl, -⟩ := h
  · exact ⟨bs ++ [(p, .Name w)], by simp⟩
  · exact ⟨bs ++ [(p, .Literal w)], by simp⟩

/-- The position is where a part of `it0` starts. -/
def Spec.PartPos (it0 : AIter) (p : SourcePos) : Prop := ∃ it, Part it0 it ∧ it.pos = p

/-- The token `t` starts a part of `it0`, at the position `p`. -/
def Spec.PartAt (it0 : AIter) (t : Token) (p : SourcePos) : Prop := ∃ r e, Part it0 ⟨(p, t) :: r, e⟩

/-- What an error tells about the tokens `it0` it is about; `lb` allows blanks before the brace. -/
def Spec.Tells (it0 : AIter) (lb : Prop) {ε : Type} : ParseError ε → Prop
  | .Custom _ | .UnexpectedEOF => True
  | .Unexpected t p | .BadSubst t p => PartAt it0 t p
  | .BadIdent s p => PartAt it0 (.Literal s) p
  | .Unmatched t p => t ∈ openers ∧ (PartAt it0 t p ∨ lb ∧ ∃ bs q r e,
      Part it0 ⟨bs ++ (q, t) :: r, e⟩ ∧ Blanks bs ∧ AIter.pos ⟨bs ++ (q, t) :: r, e⟩ = p)
  | .BadFd p q => PartPos it0 p ∧ PartPos it0 q ∧ ((∃ t ∈ it0.toks, HeredocOp t) ∨
      ∃ l l' e, Part it0 ⟨l, e⟩ ∧ AIter.pos ⟨l, e⟩ = p ∧ AIter.pos ⟨l', e⟩ = q ∧
        l' <:+ l ∧ l'.length < l.length)
  | .IncompleteCmd c p k q => (c, k) ∈ lackable ∧
      (∃ l e r, Part it0 ⟨l, e⟩ ∧ AIter.pos ⟨l, e⟩ = p ∧ KeywordAt (startWords c) l r) ∧
      (∃ l' e, Part it0 ⟨l', e⟩ ∧ AIter.pos ⟨l', e⟩ = q ∧ NoBlank l' ∧ ¬ WordAt l' k) ∧
      ((∃ t ∈ it0.toks, HeredocOp t) ∨ ∃ l l' e, Part it0 ⟨l, e⟩ ∧
        AIter.pos ⟨l, e⟩ = p ∧ AIter.pos ⟨l', e⟩ = q ∧
        (∃ r, KeywordAt (startWords c) l r ∧ l' <:+ r) ∧ NoBlank l' ∧ ¬ WordAt l' k)

theorem tells_err {B : Builder} {it0 : AIter} {lb : Prop} {err : ParseError B.Error}
    {b : B.State} (h : (Theory.parts B it0 lb).Err err b) : Tells it0 lb err := by
  cases err with
  | Custom e => trivial
  | UnexpectedEOF => trivial
  | Unexpected t p => exact h.2
  | BadSubst t p => exact h.2
  | BadIdent s p => exact h.2
  | Unmatched t p =>
    rcases h.2.2 with h' | ⟨h1, ⟨l, e⟩, bs, q, r, h2, h3, h4, h5⟩
    · exact ⟨h.2.1, .inl h'⟩
    · simp only at h4
      subst h4
      exact ⟨h.2.1, .inr ⟨h1, bs, q, r, e, h2, h5, h3⟩⟩
  | BadFd p q => exact h.2
  | IncompleteCmd c p k q => exact h.2

/-- The positions in such an error are positions of parts. -/
theorem Spec.Tells.pos {it0 : AIter} {lb : Prop} {ε : Type} {err : ParseError ε} (h : Tells it0 lb err) :
    ∀ p ∈ positions err, PartPos it0 p := by
  intro p hp
  have key : ∀ {t p}, PartAt it0 t p → PartPos it0 p := fun ⟨r, e, h⟩ => ⟨_, h, rfl⟩
  cases err with
  | Custom e => simp [positions] at hp
  | UnexpectedEOF => simp [positions] at hp
  | Unexpected t p => obtain rfl : _ = _ := by simpa [positions] using hp
                      exact key h
  | BadSubst t p => obtain rfl : _ = _ := by simpa [positions] using hp
                    exact key h
  | BadIdent s p => obtain rfl : _ = _ := by simpa [positions] using hp
                    exact key h
  | Unmatched t p =>
    obtain rfl : _ = _ := by simpa [positions] using hp
    rcases h.2 with h | ⟨-, bs, q, r, e, h1, -, h2⟩
    · exact key h
    · exact ⟨_, h1, h2⟩
  | BadFd p' q =>
    simp only [positions, List.mem_cons, List.not_mem_nil, or_false] at hp
    rcases hp with rfl | rfl
    · exact h.1
    · exact h.2.1
  | IncompleteCmd c p' k q =>
    obtain ⟨-, ⟨l, e, r, h1, h2, -⟩, ⟨l', e', h3, h4, -⟩, -⟩ := h
    simp only [positions, List.mem_cons, List.not_mem_nil, or_false] at hp
    rcases hp with rfl | rfl
    · exact ⟨_, h1, h2⟩
    · exact ⟨_, h3, h4⟩

/-- The positions between the tokens `ts`. -/
def Spec.Boundary (ts : List Token) (p : SourcePos) : Prop :=
  ∃ k ≤ ts.length, p = posAfter .new (ts.take k)

theorem annotate_mem {p : SourcePos} {ts : List Token} {x : PTok} (h : x ∈ annotate p ts) :
    x.2 ∈ ts ∧ ∃ k ≤ ts.length, x.1 = posAfter p (ts.take k) := by
  induction ts generalizing p with
  | nil => simp [annotate] at h
  | cons t ts ih =>
    rcases List.mem_cons.1 h with rfl | h
    · exact ⟨by simp, 0, by simp, rfl⟩
    · obtain ⟨h1, k, hk, h2⟩ := ih h
      refine ⟨by simp [h1], k + 1, by simpa using hk, ?_⟩
      rw [h2]; rfl

/-- What is left after any calls is a part of what was there. -/
theorem History.part {B : Builder} {it0 : AIter} {s s' : PSt CIter B} (h : History s s')
    (hs : Part it0 s.it.1.abs) : Part it0 s'.it.1.abs := by
  induction h with
  | nil => exact hs
  | @ok s s1 s' m a h _ ih =>
    refine ih ?_
    have ht := tr_method (T := Theory.parts B it0 True) m (s := s.abs) ⟨hs, trivial⟩
    unfold Theory.Tr at ht
    rw [Method.run_abs, h] at ht
    exact ht.1.j
  | @err s s1 s' m e h _ ih =>
    refine ih ?_
    have ht := tr_method (T := Theory.parts B it0 True) m (s := s.abs) ⟨hs, trivial⟩
    unfold Theory.Tr at ht
    rw [Method.run_abs, h] at ht
    exact ht.2.j

theorem part_calls {B : Builder} {ts : List Token} {b : B.State} {s : PSt CIter B}
    (hs : History (PSt.new ts b) s) : Part (AIter.ofTokens ts) s.it.1.abs := by
  refine hs.part ?_
  have : (PSt.new ts b : PSt CIter B).it.1.abs = AIter.ofTokens ts := cSim.ofTokens _
  rw [this]
  exact .all

theorem boundary_of {ts : List Token} (hk : Keeps (AIter.ofTokens ts)) {p : SourcePos}
    (h : PartPos (AIter.ofTokens ts) p) : Boundary ts p := by
  obtain ⟨⟨l, e⟩, h, rfl⟩ := h
  obtain ⟨h1, h2⟩ := hk _ h
  rcases HereOk.pos (a := []) h1 h2 with h | h
  · exact ⟨ts.length, by simp, by rw [h]; simp [AIter.ofTokens]⟩
  · obtain ⟨x, hx, h⟩ := List.mem_map.1 h
    rw [← h]
    exact (annotate_mem hx).2

theorem tells_run {B : Builder} {it0 : AIter} {s : PSt CIter B} (hp : Part it0 s.it.1.abs) (m : Method)
    (lb : Prop) (hlb : m = .braceGroup → lb ∨ NoBlank s.it.1.abs.rest) {err : ParseError B.Error}
    (h : (m.run s).1 = .err err) : Tells it0 lb err := by
  have ht := tr_method (T := Theory.parts B it0 lb) m (s := s.abs) ⟨hp, trivial⟩ hlb
  unfold Theory.Tr at ht
  rw [Method.run_abs, h] at ht
  exact tells_err ht.1

/-- C18, for all inputs: after any calls, failed ones included, the current position and every position in an error
of a parsing method is where a part of the input starts, as it is read: after some token, in the body of
backticks, in the body of a here-document, or after it. -/
theorem C18_positions_of_parts {B : Builder} (ts : List Token) (b : B.State) (s : PSt CIter B)
    (hs : History (PSt.new ts b) s) :
    PartPos (AIter.ofTokens ts) s.pos ∧
    ∀ m err, (Method.run m s).1 = .err err → ∀ p ∈ positions err, PartPos (AIter.ofTokens ts) p := by
  have hp := part_calls hs
  refine ⟨⟨_, hp, (PSt.pos_eq s).symm⟩, ?_⟩
  intro m err h p hm
  exact (tells_run hp m True (fun _ => .inl trivial) h).pos p hm

/-- C18: after any calls, failed ones included, every position in an error of a parsing method is a boundary
between tokens of the input, and so is the current position. Missing from the full property: inputs
with `<<-` here-documents, with here-documents inside the line of another one or together with backticks,
and with backslashes removed around nested backticks; there it is false
(`C18_heredoc_shifts_positions`, `C18_nested_heredoc_shifts_positions`,
`C18_nested_backticks_shift_positions`). -/
theorem C18_error_positions_partial {B : Builder} (ts : List Token) (b : B.State)
    (h1 : TruePositions ts) (s : PSt CIter B) (hs : History (PSt.new ts b) s) :
    Boundary ts s.pos ∧
    ∀ m err, (Method.run m s).1 = .err err → ∀ p ∈ positions err, Boundary ts p := by
  have hk := keeps_true h1
  obtain ⟨h2, h3⟩ := C18_positions_of_parts ts b s hs
  exact ⟨boundary_of hk h2, fun m err h p hm => boundary_of hk (h3 m err h p hm)⟩

/-- C18 for sources: every position in an error is the position after some prefix of the source:
its byte, line and column belong together. -/
theorem C18_error_positions_in_source_partial {B : Builder} (cc : CharClass) (src : Str)
    (b : B.State) (h1 : TruePositions (lex cc src)) (s : PSt CIter B)
    (hs : History (PSt.new (lex cc src) b) s) (m : Method) (err : ParseError B.Error)
    (h : (m.run s).1 = .err err) (p : SourcePos) (hp : p ∈ positions err) :
    ∃ pre suf, src = pre ++ suf ∧ p = posOf pre := by
  obtain ⟨k, hk, rfl⟩ := (C18_error_positions_partial _ b h1 s hs).2 m err h p hp
  refine ⟨(((lex cc src).take k).map Token.asStr).flatten,
    (((lex cc src).drop k).map Token.asStr).flatten, ?_, ?_⟩
  · rw [← List.flatten_append, ← List.map_append, List.take_append_drop, C01_lexer_loses_nothing]
  · exact posAfter_posOf _ (fun t ht => lex_nlOk cc src t (List.mem_of_mem_take ht)) []

/-- C14 for sources: when the source ends with a newline and contains no backtick, no sequence of calls
panics, whatever here-documents there are. Missing: sources with backticks, or without a newline at the
end. -/
theorem C14_no_panic_in_lines_partial {B : Builder} (hB : NoPanic B) (cc : CharClass) (src : Str)
    (hb : '`' ∉ src) (b : B.State) (s : PSt CIter B) (hs : History (PSt.new (lex cc (src ++ ['\n'])) b) s)
    (m : Method) (line : Nat) : (m.run s).1 ≠ .panic line := by
  intro h
  have hp := part_calls hs
  have htoks : (AIter.ofTokens (lex cc (src ++ ['\n']))).toks = lex cc (src ++ ['\n']) := annotate_toks _ _
  have ht := tr_method (T := Theory.parts B _ True) m (s := s.abs) ⟨hp, trivial⟩
  unfold Theory.Tr at ht
  rw [Method.run_abs, h] at ht
  rcases ht with ⟨-, h1⟩ | ⟨-, -, ⟨q, e, h4⟩, -⟩
  · exact h1 hB
  have h1 := C01_lexer_loses_nothing cc (src ++ ['\n'])
  have h2 := h4.ends (by
    rw [htoks]
    rintro t ht rfl
    have : '`' ∈ ((lex cc (src ++ ['\n'])).map Token.asStr).flatten :=
      List.mem_flatten.2 ⟨_, List.mem_map_of_mem ht, by decide⟩
    rw [h1] at this
    simp [hb] at this) ⟨[], [], rfl, by simp [OnlyWs]⟩
  rw [htoks] at h2
  obtain ⟨a, ws, h2, h3⟩ := h2
  have hn := lex_nlOk cc (src ++ ['\n'])
  have h5 := C02_tokens_nonempty cc (src ++ ['\n'])
  rw [h2] at h1 hn h5
  obtain ⟨ws', t, ht, htn⟩ : ∃ ws' t, Token.Backslash :: ws = ws' ++ [t] ∧ t ≠ .Newline := by
    rcases List.eq_nil_or_concat ws with rfl | ⟨ws', t, rfl⟩
    · exact ⟨[], .Backslash, rfl, by simp⟩
    · refine ⟨.Backslash :: ws', t, by simp, ?_⟩
      obtain ⟨w, rfl⟩ := h3 t (by simp)
      simp
  rw [ht] at h1 hn h5
  have h6 := hn t (by simp) htn
  have h7 := h5 t (by simp)
  rcases List.eq_nil_or_concat t.asStr with h | ⟨x, c, h⟩
  · exact h7 h
  · rw [h] at h6
    simp [h] at h1
    have := congrArg List.getLast? h1
    simp at this
    simp [this] at h6

/-! ## Concrete cases -/

/-- C14: a here-document with a backslash at the end of a line, and another one. -/
example : '`' ∉ "cat <<A <<-B\nx\\\nA\n\ty\\\n\tB".toList ∧
    ((Method.completeCommand.run (parserOf "cat <<A <<-B\nx\\\nA\n\ty\\\n\tB\n")).1 matches .ok (some _)) = true := by
  decide +kernel


/-- The positions in the error that `complete_command` returns for the source. -/
def errorPositions (src : String) : List SourcePos :=
  match (Method.completeCommand.run (parserOf src)).1 with
  | .err e => positions e
  | _ => []

theorem errorPositions_spec {src : String} {p : SourcePos} (h : p ∈ errorPositions src) :
    ∃ err, (Method.completeCommand.run (parserOf src)).1 = .err err ∧ p ∈ positions err := by
  unfold errorPositions at h
  split at h
  · exact ⟨_, by assumption, h⟩
  · simp at h

/-- C18, a case that is missing: in `<<-` here-documents the tabs *inside* a line move the positions
of the tokens before them. The error reported for `${ ` at byte 12 is reported at byte 14, in the
middle of the token `abc`. -/
theorem C18_heredoc_shifts_positions :
    ∃ err, (Method.completeCommand.run (parserOf "cat <<-E\n\t${ abc\t\tb\nE\n")).1 = .err err ∧
      ∃ p ∈ positions err, p = ⟨14, 2, 6⟩ ∧
        ¬ Boundary (lex ascii "cat <<-E\n\t${ abc\t\tb\nE\n".toList) p := by
  obtain ⟨err, h, hp⟩ := errorPositions_spec (src := "cat <<-E\n\t${ abc\t\tb\nE\n")
    (p := ⟨14, 2, 6⟩) (by decide +kernel)
  refine ⟨err, h, _, hp, rfl, ?_⟩
  rintro ⟨k, hk, h⟩
  have : ∀ k ≤ (lex ascii "cat <<-E\n\t${ abc\t\tb\nE\n".toList).length,
      ⟨14, 2, 6⟩ ≠ posAfter .new ((lex ascii "cat <<-E\n\t${ abc\t\tb\nE\n".toList).take k) := by
    decide +kernel
  exact this k hk h

/-- C18, another case that is missing: the line of a here-document operator inside quotes can go on
beyond the body of the here-document before it; what follows is counted as if the body was not there. The
error about the `)` at byte 31, in line 4, is reported at byte 25, in the middle of the word `xyz` in
line 2. -/
theorem C18_nested_heredoc_shifts_positions :
    ∃ err, (Method.completeCommand.run
        (parserOf "cat <<A \"$(cat <<B)\" &&\nxyz\nA\n )\" \nB\n")).1 = .err err ∧
      ∃ p ∈ positions err, p = ⟨25, 2, 2⟩ ∧
        ¬ Boundary (lex ascii "cat <<A \"$(cat <<B)\" &&\nxyz\nA\n )\" \nB\n".toList) p := by
  obtain ⟨err, h, hp⟩ := errorPositions_spec
    (src := "cat <<A \"$(cat <<B)\" &&\nxyz\nA\n )\" \nB\n") (p := ⟨25, 2, 2⟩) (by decide +kernel)
  refine ⟨err, h, _, hp, rfl, ?_⟩
  rintro ⟨k, hk, h⟩
  have : ∀ k ≤ (lex ascii "cat <<A \"$(cat <<B)\" &&\nxyz\nA\n )\" \nB\n".toList).length,
      ⟨25, 2, 2⟩ ≠ posAfter .new
        ((lex ascii "cat <<A \"$(cat <<B)\" &&\nxyz\nA\n )\" \nB\n".toList).take k) := by
    decide +kernel
  exact this k hk h

/-- C18, the other case that is missing: when a backslash was removed around nested backticks, the
positions inside are counted without it. The `)` at byte 10, the first of line 2, is reported at byte 9 of
line 2, and no prefix of the source ends there. -/
theorem C18_nested_backticks_shift_positions :
    ∃ err, (Method.completeCommand.run (parserOf "`a \\`b \\$\n)\\``")).1 = .err err ∧
      ∃ p ∈ positions err, p = ⟨9, 2, 1⟩ ∧
        ¬ ∃ pre suf, "`a \\`b \\$\n)\\``".toList = pre ++ suf ∧ p = posOf pre := by
  obtain ⟨err, h, hp⟩ := errorPositions_spec (src := "`a \\`b \\$\n)\\``")
    (p := ⟨9, 2, 1⟩) (by decide +kernel)
  refine ⟨err, h, _, hp, rfl, ?_⟩
  rintro ⟨pre, suf, h1, h2⟩
  have : ∀ k ≤ "`a \\`b \\$\n)\\``".toList.length,
      ⟨9, 2, 1⟩ ≠ posOf ("`a \\`b \\$\n)\\``".toList.take k) := by decide +kernel
  refine this pre.length ?_ ?_
  · rw [h1]; simp
  · rw [h1]; simpa using h2

/-- A check that implies `SimpleBackticks`. -/
def simpleBackticks (l : List PTok) : Bool :=
  (List.range (l.length + 1)).all fun i => (List.range (l.length + 1)).all fun j =>
    let rest := l.drop i
    rest.head?.map Prod.snd != some .Backtick || (rest.tail.drop j).head?.map Prod.snd != some .Backtick ||
      (unescape (rest.tail.take j) == rest.tail.take j ||
        (unescape (rest.tail.take j)).all (·.2 != .Backtick))

theorem simpleBackticks_sound {l : List PTok} (h : simpleBackticks l = true) :
    SimpleBackticks l := by
  intro before p xs q after heq _
  unfold simpleBackticks at h
  rw [List.all_eq_true] at h
  have h1 := h before.length (by simp [heq]; omega)
  rw [List.all_eq_true] at h1
  have h2 := h1 xs.length (by simp [heq]; omega)
  simpa [heq] using h2

theorem ordinary_iff (t : Token) : Ordinary none t ↔
    t ∉ [Token.Backslash, .Dollar, .Backtick, .SingleQuote, .DoubleQuote, .ParenOpen] := by
  constructor
  · rintro ⟨h1, h2, h3⟩ h
    simp only [List.mem_cons, List.not_mem_nil, or_false] at h
    rcases h with rfl | rfl | rfl | rfl | rfl | rfl
    · exact h1 rfl
    · exact h2 rfl
    · exact h3 _ .backtick
    · exact h3 _ (.squote (by simp))
    · exact h3 _ .dquote
    · exact h3 _ .paren
  · intro h
    refine ⟨fun e => h (by simp [e]), fun e => h (by simp [e]), ?_⟩
    rintro c' h'
    cases h' <;> simp at h

/-- A check that implies `FlatHere`: nothing is quoted after an operator in its line. -/
def flatHere (l : List PTok) : Bool :=
  (List.range l.length).all fun i =>
    let rest := l.drop i
    (rest.head?.map Prod.snd != some .DLess && rest.head?.map Prod.snd != some .DLessDash) ||
      ((rest.tail.takeWhile (fun x => x.2 ≠ .Newline)).all fun x =>
        decide (x.2 ∉ [Token.Backslash, .Dollar, .Backtick, .SingleQuote, .DoubleQuote, .ParenOpen]))

theorem units_ordinary {u r : List PTok} (h : ∀ x ∈ u, Ordinary none x.2 ∧ x.2 ≠ .Newline) : Units u r := by
  induction u with
  | nil => exact .nil
  | cons x u ih =>
    obtain ⟨h1, h2⟩ := h x (by simp)
    exact .cons (u := [x]) (by simp) (by intro p h; simp at h; subst h; exact h2 rfl) (.plain h1)
      (ih fun y hy => h y (by simp [hy]))

theorem ordinary_units {u r : List PTok} (h : Units u r)
    (ho : ∀ x ∈ (u ++ r).takeWhile (fun x => x.2 ≠ .Newline), Ordinary none x.2) :
    ∀ x ∈ u, Ordinary none x.2 ∧ x.2 ≠ .Newline := by
  induction h with
  | nil => simp
  | @cons u v r h1 h2 h3 _ ih =>
    cases hu : u with
    | nil => exact absurd hu h1
    | cons t u' =>
      subst hu
      by_cases ht : t.2 = .Newline
      · obtain ⟨p, t⟩ := t
        cases ht
        have := topUnit_ordinary (t := (p, .Newline)) (l := u' ++ (v ++ r)) ordinary_newline h1 h3 (by simp)
        exact absurd this (h2 p)
      · have hot : Ordinary none t.2 := ho t (by simp [ht])
        have := topUnit_ordinary (t := t) (l := u' ++ (v ++ r)) hot h1 h3 (by simp)
        simp at this
        subst this
        intro x hx
        simp only [List.singleton_append, List.mem_cons] at hx
        rcases hx with rfl | hx
        · exact ⟨hot, ht⟩
        · exact ih (fun y hy => ho y (by simp [ht]; exact .inr (by simpa using hy))) x hx

theorem flatHere_sound {l : List PTok} (h : flatHere l = true) : FlatHere l := by
  intro before o line after heq ho hu a x b hl hx
  unfold flatHere at h
  rw [List.all_eq_true] at h
  have h1 := h before.length (by simp [heq])
  have h2 : ∀ x ∈ (line ++ after).takeWhile (fun x => x.2 ≠ .Newline), Ordinary none x.2 := by
    intro x hx
    rw [ordinary_iff]
    simp only [heq, List.drop_left, List.head?_cons, Option.map_some, List.tail_cons, Bool.or_eq_true,
      List.all_eq_true] at h1
    rcases h1 with h1 | h1
    · rcases ho with ho | ho <;> simp [ho] at h1
    · exact of_decide_eq_true (h1 x hx)
  have h3 := ordinary_units hu h2
  exact units_ordinary fun y hy => h3 y (by rw [hl]; simp [hy])

/-- C18: a source with two here-documents and a multi-byte character, and an error in the second body: the
blank at byte 27, in column 6 of line 4. -/
example : TruePositions (lex ascii "cat <<A | cat <<B\nx\nA\né ${ }\nB\n".toList) ∧
    ∃ err, (Method.completeCommand.run (parserOf "cat <<A | cat <<B\nx\nA\né ${ }\nB\n")).1 = .err err ∧
      ⟨27, 4, 6⟩ ∈ positions err := by
  refine ⟨.inr ⟨?_, flatHere_sound (by decide +kernel)⟩, errorPositions_spec (by decide +kernel)⟩
  have : (lex ascii "cat <<A | cat <<B\nx\nA\né ${ }\nB\n".toList).all
      (fun t => t ≠ .Backtick ∧ t ≠ .DLessDash) = true := by decide +kernel
  intro t ht
  have := List.all_eq_true.1 this t ht
  simpa using this

/-- C18: a source with backticks, a removed backslash and a multi-byte character, and an error inside
the backticks: the `)` in column 7 of line 2. -/
example : TruePositions (lex ascii "é\n`\\$x | )`".toList) ∧
    ∃ s a, Method.completeCommand.run (parserOf "é\n`\\$x | )`") = (.ok a, s) ∧
      ∃ err, (Method.completeCommand.run s).1 = .err err ∧ ⟨10, 2, 8⟩ ∈ positions err := by
  refine ⟨.inl ⟨?_, simpleBackticks_sound (by decide +kernel)⟩, ?_⟩
  · have : (lex ascii "é\n`\\$x | )`".toList).all (fun t => t ≠ .DLess ∧ t ≠ .DLessDash) = true := by
      decide +kernel
    intro t ht
    have := List.all_eq_true.1 this t ht
    simpa [HeredocOp] using this
  · have h : (match Method.completeCommand.run (parserOf "é\n`\\$x | )`") with
      | (.ok _, s) => (match (Method.completeCommand.run s).1 with
        | .err e => decide (⟨10, 2, 8⟩ ∈ positions e)
        | _ => false)
      | _ => false) = true := by decide +kernel
    generalize Method.completeCommand.run (parserOf "é\n`\\$x | )`") = z at h
    split at h
    · rename_i a s
      split at h
      · rename_i e he
        exact ⟨s, a, rfl, e, he, by simpa using h⟩
      · simp at h
    · simp at h

end Conch
