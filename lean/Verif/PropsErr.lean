import Verif.PropsPos
import Verif.PropsIncomplete
/-!
# Properties C40 (the token in an error is there) and C41 (errors about incomplete commands are true)
-/
namespace Conch
open Spec

/-- The token an error is about, and where it is said to be. -/
def Spec.reported {ε : Type} : ParseError ε → Option (Token × SourcePos)
  | .Unexpected t p | .BadSubst t p | .Unmatched t p => some (t, p)
  | .BadIdent s p => some (.Literal s, p)
  | _ => none

theorem annotate_split {p : SourcePos} {ts : List Token} {xs l : List PTok}
    (h : annotate p ts = xs ++ l) :
    ∃ a r, ts = a ++ r ∧ xs = annotate p a ∧ l = annotate (posAfter p a) r := by
  induction xs generalizing p ts with
  | nil => exact ⟨[], ts, rfl, rfl, by simpa [posAfter] using h.symm⟩
  | cons x xs ih =>
    cases ts with
    | nil => simp [annotate] at h
    | cons t ts =>
      simp only [annotate, List.cons_append, List.cons.injEq] at h
      obtain ⟨a, r, rfl, rfl, rfl⟩ := ih h.2
      exact ⟨t :: a, r, rfl, by simp [annotate, h.1], rfl⟩

theorem annotate_pos (p : SourcePos) (ts : List Token) :
    AIter.pos ⟨annotate p ts, posAfter p ts⟩ = p := by
  cases ts <;> rfl

theorem mem_annotate {ts : List Token} {t : Token} {p : SourcePos} (h : (p, t) ∈ annotate .new ts) :
    ∃ before after, ts = before ++ t :: after ∧ p = posAfter .new before := by
  obtain ⟨xs, ys, h⟩ := List.append_of_mem h
  obtain ⟨a, r, rfl, -, h⟩ := annotate_split h
  cases r with
  | nil => simp [annotate] at h
  | cons u r =>
    simp only [annotate, List.cons.injEq, Prod.mk.injEq] at h
    obtain ⟨⟨rfl, rfl⟩, -⟩ := h
    exact ⟨a, r, rfl, rfl⟩

/-- **C40**, for all inputs: after any calls, failed ones included, the token that an error names is the first one of
a part of the input, as it is read, which starts at the reported position. `brace_group` must not be
called before blanks (`C40_brace_group_reports_blanks`). -/
theorem C40_reported_token_in_part {B : Builder} (ts : List Token) (b : B.State) (s : PSt CIter B)
    (hs : History (PSt.new ts b) s) (m : Method) (hm : m = .braceGroup → Gram.NoBlank s.tokens)
    (err : ParseError B.Error) (h : (m.run s).1 = .err err) (t : Token) (p : SourcePos)
    (hr : reported err = some (t, p)) : PartAt (AIter.ofTokens ts) t p := by
  have ht := tells_run (part_calls hs) m False (fun hb => .inr (Gram.lift_noBlank (hm hb))) h
  cases err with
  | Unexpected t p => cases hr; exact ht
  | BadSubst t p => cases hr; exact ht
  | BadIdent s p => cases hr; exact ht
  | Unmatched t p => cases hr; exact ht.2.resolve_right fun h => h.1
  | _ => cases hr

/-- **C40**, for all inputs: the token that an error names is a token of the input, or a whitespace token of
the input without its tabs (in a `<<-` here-document). -/
theorem C40_reported_token_in_input {B : Builder} (ts : List Token) (b : B.State) (s : PSt CIter B)
    (hs : History (PSt.new ts b) s) (m : Method) (err : ParseError B.Error) (h : (m.run s).1 = .err err)
    (t : Token) (p : SourcePos) (hr : reported err = some (t, p)) :
    t ∈ ts ∨ Trimmed ts t := by
  have ht := tells_run (part_calls hs) m True (fun _ => .inl trivial) h
  have key : ∀ {t p}, PartAt (AIter.ofTokens ts) t p → t ∈ ts ∨ Trimmed ts t := by
    rintro t p ⟨r, e, h⟩
    have := h.toks t (by simp [AIter.toks])
    rwa [show (AIter.ofTokens ts).toks = ts from annotate_toks _ _] at this
  cases err with
  | Unexpected t p => cases hr; exact key ht
  | BadSubst t p => cases hr; exact key ht
  | BadIdent s p => cases hr; exact key ht
  | Unmatched t p =>
    cases hr
    rcases ht.2 with ht | ⟨-, bs, q, r, e, ht, -, -⟩
    · exact key ht
    · exact key ⟨r, e, ht.suffix (l' := (q, t) :: r) ⟨bs, rfl⟩⟩
  | _ => cases hr

/-- **C40**, for all states: the token that an `Unmatched` error names is a quote, a backtick, `(` or `{`. -/
theorem C40_unmatched_is_opener {B : Builder} (m : Method) (s : PSt CIter B) (t : Token) (p : SourcePos)
    (h : (m.run s).1 = .err (.Unmatched t p)) : t ∈ openers := by
  have ht := tr_method m (basic_inv s.abs)
  unfold Theory.Tr at ht
  rw [Method.run_abs, h] at ht
  exact ht.1.2.1

/-- **C40.** After any calls, failed ones included, the token that an error names is a token of the input, and
the reported position is where it starts. `brace_group` must not be called before blanks
(`C40_brace_group_reports_blanks`). Missing from the full property: the inputs that are missing for C18. -/
theorem C40_reported_token_is_there_partial {B : Builder} (ts : List Token) (b : B.State)
    (h1 : TruePositions ts) (s : PSt CIter B)
    (hs : History (PSt.new ts b) s) (m : Method) (hm : m = .braceGroup → Gram.NoBlank s.tokens)
    (err : ParseError B.Error) (h : (m.run s).1 = .err err) (t : Token) (p : SourcePos)
    (hr : reported err = some (t, p)) :
    ∃ before after, ts = before ++ t :: after ∧ p = posAfter .new before := by
  obtain ⟨r, e, ht⟩ := C40_reported_token_in_part ts b s hs m hm err h t p hr
  exact mem_annotate ((keeps_true h1 _ ht).1 _ (by simp))

/-- **C40** for sources: the text of the token is in the source, at the reported position. -/
theorem C40_reported_token_in_source_partial {B : Builder} (cc : CharClass) (src : Str) (b : B.State)
    (h1 : TruePositions (lex cc src)) (s : PSt CIter B) (hs : History (PSt.new (lex cc src) b) s) (m : Method)
    (hm : m = .braceGroup → Gram.NoBlank s.tokens) (err : ParseError B.Error)
    (h : (m.run s).1 = .err err) (t : Token) (p : SourcePos) (hr : reported err = some (t, p)) :
    ∃ pre suf, src = pre ++ t.asStr ++ suf ∧ p = posOf pre := by
  obtain ⟨xs, ys, h3, rfl⟩ := C40_reported_token_is_there_partial _ b h1 s hs m hm err h t p hr
  refine ⟨(xs.map Token.asStr).flatten, (ys.map Token.asStr).flatten, ?_, ?_⟩
  · rw [← C01_lexer_loses_nothing cc src, h3]; simp
  · exact posAfter_posOf _ (fun t ht => lex_nlOk cc src t (by rw [h3]; simp [ht])) []

/-- **C34.** Whatever the input, an `IncompleteCmd` error names a command and a keyword of it. -/
theorem C34_pairs {B : Builder} (m : Method) (s : PSt CIter B) (c k : Str) (p q : SourcePos)
    (h : (m.run s).1 = .err (.IncompleteCmd c p k q)) : (c, k) ∈ lackable := by
  have ht := tr_method m (basic_inv s.abs)
  unfold Theory.Tr at ht
  rw [Method.run_abs, h] at ht
  exact ht.1.2.1

theorem part_suffix {ts : List Token} {it : AIter} (h : Part (AIter.ofTokens ts) it)
    (hh : ∀ t ∈ ts, ¬ HeredocOp t) (hb : ∀ t ∈ ts, t ≠ .Backtick) :
    it.rest <:+ annotate .new ts ∧ it.endPos = posAfter .new ts := by
  have key : ∀ {t it}, Part (AIter.ofTokens ts) it → t ∈ it.toks → t ∈ ts ∨ Trimmed ts t := by
    intro t it h ht
    have := h.toks t ht
    rwa [show (AIter.ofTokens ts).toks = ts from annotate_toks _ _] at this
  have key2 : ∀ {t p r e}, Part (AIter.ofTokens ts) ⟨(p, t) :: r, e⟩ → ¬ HeredocOp t := by
    intro t p r e h ht
    rcases key (t := t) h (by simp [AIter.toks]) with h | ⟨w, rfl, -⟩
    · exact hh t h ht
    · rcases ht with h | h <;> cases h
  induction h with
  | all => exact ⟨List.suffix_refl _, rfl⟩
  | tail _ ih => exact ⟨(List.suffix_cons _ _).trans ih.1, ih.2⟩
  | @backticks p q xs ys e sub h _ _ _ _ =>
    rcases key (t := .Backtick) h (by simp [AIter.toks]) with h | ⟨w, h, -⟩
    · exact absurd rfl (hb _ h)
    · cases h
  | hereRest h ht => exact absurd ht (key2 h)
  | hereBody h ht => exact absurd ht (key2 h)

/-- **C41**, for all inputs: an `IncompleteCmd` error is true: in some part of the input, as it is read,
at its first position, a command starts with the word it names (`until` goes by the name of `while`), and
in some part, at its second position, without blanks before it, the keyword it names is missing. -/
theorem C41_incomplete_error_in_parts {B : Builder} (ts : List Token) (b : B.State) (s : PSt CIter B)
    (hs : History (PSt.new ts b) s) (m : Method) (c k : Str) (p q : SourcePos)
    (h : (m.run s).1 = .err (.IncompleteCmd c p k q)) :
    (∃ l e r, Part (AIter.ofTokens ts) ⟨l, e⟩ ∧ AIter.pos ⟨l, e⟩ = p ∧ KeywordAt (startWords c) l r) ∧
    ∃ l' e, Part (AIter.ofTokens ts) ⟨l', e⟩ ∧ AIter.pos ⟨l', e⟩ = q ∧ NoBlank l' ∧ ¬ WordAt l' k :=
  have := tells_run (part_calls hs) m True (fun _ => .inl trivial) h
  ⟨this.2.1, this.2.2.1⟩

/-- **C41.** Without here-documents, the two places are in one part, the second one after the word that
starts the command. Missing from the full property: inputs with here-documents, where what follows a body
is put after the rest of the line. -/
theorem C41_incomplete_error_sound_partial {B : Builder} (ts : List Token) (b : B.State)
    (h1 : ∀ t ∈ ts, ¬ HeredocOp t) (s : PSt CIter B)
    (hs : History (PSt.new ts b) s) (m : Method) (c k : Str) (p q : SourcePos)
    (h : (m.run s).1 = .err (.IncompleteCmd c p k q)) :
    ∃ l l' e, Part (AIter.ofTokens ts) ⟨l, e⟩ ∧ AIter.pos ⟨l, e⟩ = p ∧ AIter.pos ⟨l', e⟩ = q ∧
      (∃ r, KeywordAt (startWords c) l r ∧ l' <:+ r) ∧ NoBlank l' ∧ ¬ WordAt l' k := by
  have := tells_run (part_calls hs) m True (fun _ => .inl trivial) h
  refine this.2.2.2.resolve_left ?_
  rintro ⟨t, ht, ht'⟩
  rw [show (AIter.ofTokens ts).toks = ts from annotate_toks _ _] at ht
  exact h1 t ht ht'

/-- **C41.** The same without `Part`, for inputs without backticks: at its first position a command starts with the word it
names (`until` goes by the name of `while`), and at its second position, after that word and any
blanks, the keyword it names is missing. Missing: as before, and backticks. -/
theorem C41_incomplete_error_in_source_partial {B : Builder} (ts : List Token) (b : B.State)
    (h1 : ∀ t ∈ ts, ¬ HeredocOp t) (h2 : ∀ t ∈ ts, t ≠ .Backtick) (s : PSt CIter B)
    (hs : History (PSt.new ts b) s) (m : Method) (c k : Str) (p q : SourcePos)
    (h : (m.run s).1 = .err (.IncompleteCmd c p k q)) :
    ∃ w ∈ startWords c, ∃ before mid rest, ts = before ++ mid ++ rest ∧ p = posAfter .new before ∧
      q = posAfter .new (before ++ mid) ∧ (∃ mid', Gram.Kw w (mid ++ rest) (mid' ++ rest)) ∧
      Gram.Missing [k] rest rest := by
  obtain ⟨l, l', e, h3, rfl, rfl, ⟨r, hk, h4⟩, h5, h6⟩ :=
    C41_incomplete_error_sound_partial ts b h1 s hs m c k p q h
  obtain ⟨h7, h8⟩ := part_suffix h3 h1 h2
  simp only at h7 h8
  subst h8
  obtain ⟨xs, h7⟩ := h7
  obtain ⟨before, mr, rfl, -, rfl⟩ := annotate_split h7.symm
  obtain ⟨ys, h9⟩ := h4.trans hk.suffix
  obtain ⟨mid, rest, rfl, -, rfl⟩ := annotate_split h9.symm
  obtain ⟨zs, h10⟩ := h4
  obtain ⟨bs, p, w, hw, hb, hl, he⟩ := hk
  have e1 : posAfter .new (before ++ (mid ++ rest)) =
      posAfter (posAfter (posAfter .new before) mid) rest := by
    rw [posAfter_append, posAfter_append]
  have htoks : Gram.toks r = Gram.toks zs ++ rest := by
    rw [← h10]
    simp [Gram.toks, annotate_toks]
  have hskip : Gram.Kw w (mid ++ rest) (Gram.toks zs ++ rest) := by
    rcases hl with hl | hl
    all_goals
      have := congrArg Gram.toks hl
      simp only [Gram.toks, annotate_toks, List.map_append, List.map_cons] at this
      rw [this]
      refine ⟨_, ⟨Gram.toks bs, rfl, Gram.unlift_blanks hb, ?_⟩, ?_, ?_⟩
      · constructor <;> intros <;> simp
      · rw [← htoks]
        first | exact .inl rfl | exact .inr rfl
      · rw [← htoks]; exact Gram.unlift_endsWord he
  refine ⟨w, hw, before, mid, rest, by simp, ?_, ?_, ⟨_, hskip⟩, ⟨?_, ?_⟩⟩
  · rw [posAfter_append]; exact annotate_pos _ _
  · rw [e1, posAfter_append]; exact annotate_pos _ _
  · refine Gram.Skip.refl ?_
    have := Gram.unlift_noBlank h5
    rwa [show Gram.toks (annotate (posAfter (posAfter .new before) mid) rest) = rest from
      annotate_toks _ _] at this
  · intro w hw r' hkw
    obtain rfl : w = k := by simpa using hw
    refine h6 (Gram.lift_keyword (r := r') ?_)
    rwa [show Gram.toks (annotate (posAfter (posAfter .new before) mid) rest) = rest from
      annotate_toks _ _]

/-! ## Concrete cases -/

/-- The token in the error of the second of two calls, and its position. -/
def secondReport (m1 m2 : Method) (s : PSt CIter EmptyBuilder) : Option (Token × SourcePos) :=
  match m1.run s with
  | (.ok _, s) =>
    match (m2.run s).1 with
    | .err e => reported e
    | _ => none
  | _ => none

theorem secondReport_spec {m1 m2 : Method} {s : PSt CIter EmptyBuilder} {t : Token} {p : SourcePos}
    (h : secondReport m1 m2 s = some (t, p)) :
    ∃ s' err, Calls s s' ∧ (m2.run s').1 = .err err ∧ reported err = some (t, p) := by
  unfold secondReport at h
  split at h
  · rename_i a s' h1
    split at h
    · rename_i e h2
      exact ⟨s', e, .cons _ h1 .nil, h2, h⟩
    · cases h
  · cases h

/-- C40: a source with backticks, a removed backslash and a multi-byte character: the second call
reports the `)` in column 8 of line 2, and the hypotheses of the theorems hold. -/
example : TruePositions (lex ascii "é\n`\\$x | )`".toList) ∧
    ∃ s err, Calls (parserOf "é\n`\\$x | )`") s ∧
      (Method.completeCommand.run s).1 = .err err ∧
      reported err = some (.ParenClose, ⟨10, 2, 8⟩) := by
  refine ⟨.inl ⟨?_, simpleBackticks_sound (by decide +kernel)⟩, secondReport_spec
    (m1 := .completeCommand) (by decide +kernel)⟩
  have : (lex ascii "é\n`\\$x | )`".toList).all (fun t => t ≠ .DLess ∧ t ≠ .DLessDash) = true := by
    decide +kernel
  intro t ht
  have := List.all_eq_true.1 this t ht
  simpa [HeredocOp] using this

/-- C40, a case that is missing: `brace_group` notes the position before it skips blanks, so that an
unmatched `{` is reported where the blanks start. -/
theorem C40_brace_group_reports_blanks :
    ∃ err, (Method.braceGroup.run (parserOf "  { foo")).1 = .err err ∧
      reported err = some (.CurlyOpen, ⟨0, 1, 1⟩) := by
  have h : (match (Method.braceGroup.run (parserOf "  { foo")).1 with
    | .err e => decide (reported e = some (.CurlyOpen, ⟨0, 1, 1⟩))
    | _ => false) = true := by decide +kernel
  generalize (Method.braceGroup.run (parserOf "  { foo")).1 = z at h ⊢
  split at h
  · exact ⟨_, rfl, by simpa using h⟩
  · cases h

/-- C41: after a successful call, an `until` loop in a second line without `do`. -/
example : (∀ t ∈ lex ascii "a\nuntil b; c".toList, ¬ HeredocOp t ∧ t ≠ .Backtick) ∧
    ∃ s, Calls (parserOf "a\nuntil b; c") s ∧
      (Method.completeCommand.run s).1 = .err (.IncompleteCmd WHILE ⟨2, 2, 1⟩ DO ⟨12, 2, 11⟩) := by
  constructor
  · have : (lex ascii "a\nuntil b; c".toList).all
        (fun t => t ≠ .DLess ∧ t ≠ .DLessDash ∧ t ≠ .Backtick) = true := by decide +kernel
    intro t ht
    have := List.all_eq_true.1 this t ht
    simp at this
    exact ⟨fun h => h.elim this.1 this.2.1, this.2.2⟩
  · have h : (match Method.completeCommand.run (parserOf "a\nuntil b; c") with
      | (.ok _, s) => (match (Method.completeCommand.run s).1 with
        | .err e => decide (e = .IncompleteCmd WHILE ⟨2, 2, 1⟩ DO ⟨12, 2, 11⟩)
        | _ => false)
      | _ => false) = true := by decide +kernel
    generalize hz : Method.completeCommand.run (parserOf "a\nuntil b; c") = z at h
    split at h
    · rename_i a s
      split at h
      · rename_i e he
        refine ⟨s, .cons _ hz .nil, ?_⟩
        rw [he]
        simpa using h
      · cases h
    · cases h

/-- **C41 is false with here-documents**: the end of the body of a here-document counts as the place where the
body starts (parse.rs:1079), so that the `fi` that is missing at the end of the body is reported at byte 8, before
the `if` at byte 10. -/
theorem C41_heredoc_reports_keyword_before_command :
    (Method.completeCommand.run (parserOf "cat <<E\n$(if a; then b\nE\n")).1 =
      .err (.IncompleteCmd IF ⟨10, 2, 3⟩ FI ⟨8, 2, 1⟩) := by
  have h : (match (Method.completeCommand.run (parserOf "cat <<E\n$(if a; then b\nE\n")).1 with
    | .err e => decide (e = .IncompleteCmd IF ⟨10, 2, 3⟩ FI ⟨8, 2, 1⟩)
    | _ => false) = true := by decide +kernel
  generalize (Method.completeCommand.run (parserOf "cat <<E\n$(if a; then b\nE\n")).1 = z at h ⊢
  split at h
  · simpa using h
  · cases h

end Conch
