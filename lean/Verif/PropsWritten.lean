import Verif.Written
import Verif.PropsEmbed
/-!
# C57: quote removal
-/
namespace Conch
open Spec Gram

section
variable {cc : CharClass}

theorem pieces_start {B : Builder} {b b' : B.State} {l r : List Token} {ws} (h : Reads (.pieces none) b l ws r b')
    (hw : ws ≠ []) : Gram.NoBlank l := by
  cases h with
  | consPiece _ h1 _ =>
    obtain ⟨t, l', rfl, h2, h3⟩ := h1.piece_head
    refine ⟨?_, ?_⟩
    · rintro w r e
      cases e
      cases h2
    · rintro r e
      cases e
      exact h3 rfl _ rfl
  | _ => exact absurd rfl hw

theorem no_pound {p rest : Str} (hp : p ≠ []) (hh : p.head? ≠ some '#') (r : List Token) :
    lex cc (p ++ rest) ≠ .Pound :: r := by
  intro e
  have := C01_concat_tokens cc (p ++ rest)
  rw [e, concatTokens_cons] at this
  obtain ⟨c, p, rfl⟩ := List.exists_cons_of_ne_nil hp
  injection this with this _
  subst this
  exact hh rfl

/-- **C57, any builder.** Whatever way a word is written in - unquoted, escaped, in single or in double
quotes, in any mixture - and whatever follows it, the builder is given one word that consists of exactly the
characters and parameters written, quoted and active exactly as written. -/
theorem C57_quote_removal_any_builder {B : Builder} (hs : cc.Sane) (is : List Item) (p : Str) (hp : p ≠ [])
    (hh : p.head? ≠ some '#') (h : Written cc is p) (b : B.State) :
    ∃ ws, ws ≠ [] ∧ ws.flatMap kpItems = is ∧ ∀ rest, Gram.EndsWord (lex cc rest) →
      ∀ w b', B.call (.word (wordWith ws)) b = (.ok w, b') →
        Parses .wordPreserveTrailingWhitespace (parserOn (lex cc (p ++ rest)) b) (some w) (lex cc rest) b' := by
  obtain ⟨ws, h1, h2, h3⟩ := written_reads (B := B) hs b _ (Nat.le_refl _) h
  refine ⟨ws, h2 hp, h1, fun rest hr w b' hc => ?_⟩
  refine C31_parser_accepts_grammar .wordPreserveTrailingWhitespace trivial _ _ _ _ ?_
  show Reads .wordP b (parserOn (B := B) _ b).tokens (some w) _ b'
  rw [PSt.tokens, parserOn_rest]
  have hread := h3 rest hr
  have := Reads.someWord (.refl (pieces_start hread (h2 hp))) (no_pound hp hh) hread
  rw [wordOf_eq (h2 hp)] at this
  exact .wordPSome this hc

/-- **C57, default builder.** Whatever way a word is written in, the parser returns one word - always the same -
that consists of exactly the characters and parameters written; exactly those characters are quoted that were
written in quotes or after a backslash; and what follows is left. -/
theorem C57_quote_removal (hs : cc.Sane) (is : List Item) (p : Str) (hp : p ≠ []) (hh : p.head? ≠ some '#')
    (h : Written cc is p) :
    ∃ w, wordItems w = is ∧ ∀ rest, Gram.EndsWord (lex cc rest) →
      Parses (B := DefaultBuilder) .wordPreserveTrailingWhitespace (parserOn (lex cc (p ++ rest)) ()) (some w) (lex cc rest) () := by
  obtain ⟨ws, h1, h2, h3⟩ := C57_quote_removal_any_builder (B := DefaultBuilder) hs is p hp hh h ()
  refine ⟨stringCore.word (wordWith ws), ?_, fun rest hr => h3 rest hr _ _ rfl⟩
  rw [wordItems_word, kItems_wordWith]
  exact h2

theorem ends_at {q : Str} (hs : cc.Sane) (hr : q.head? = some ' ' ∨ q.head? = some '\n') : Gram.EndsWord (lex cc q) := by
  have : WordEnd cc q := by
    cases q with
    | nil => simp at hr
    | cons c q =>
      rcases hr with hr | hr <;> cases hr
      · exact .inr ⟨_, _, rfl, .inl ⟨hs.space, by decide⟩⟩
      · exact tail_op (by decide)
  exact this.ends hs

theorem Spec.Written.start (hs : cc.Sane) {is : List Item} {p : Str} (h : Written cc is p) (hp : p ≠ [])
    (hb : p.head? ≠ some '\\') : ∃ c r, p = c :: r ∧ c ≠ '\\' ∧ cc.whitespace c = false := by
  have op : ∀ c ∈ "'\"$".toList, c ≠ '\\' ∧ cc.whitespace c = false := by
    intro c hc
    have h1 : ∀ c ∈ "'\"$".toList, c ≠ '\n' ∧ c ≠ '\\' ∧ ∃ p ∈ operators, p.1.head? = some c := by decide
    obtain ⟨h2, h3, h4⟩ := h1 c hc
    exact ⟨h3, (hs.op _ (.inl h4)).2 h2⟩
  cases h with
  | nil => exact absurd rfl hp
  | bare h1 _ => exact ⟨_, _, rfl, fun e => hb (by rw [e]; rfl), h1.1⟩
  | escaped => exact absurd rfl hb
  | single => exact ⟨_, _, rfl, op _ (by decide)⟩
  | double => exact ⟨_, _, rfl, op _ (by decide)⟩
  | param h1 _ =>
    obtain ⟨r, rfl⟩ := h1.starts
    exact ⟨_, _, rfl, op _ (by decide)⟩

/-- Words and how they are written. -/
def Spec.Argument (cc : CharClass) (a : Str × List Item) : Prop :=
  a.1 ≠ [] ∧ a.1.head? ≠ some '#' ∧ a.1.head? ≠ some '\\' ∧ Written cc a.2 a.1

theorem Spec.Argument.whole (hs : cc.Sane) {a : Str × List Item} (h : Argument cc a) :
    ∃ w, wordItems w = a.2 ∧ WholeWord cc a.1 w := by
  obtain ⟨h1, h2, h3, h4⟩ := h
  obtain ⟨w, h5, h6⟩ := C57_quote_removal hs a.2 a.1 h1 h2 h4
  exact ⟨w, h5, h4.start hs h1 h3, fun q hq => h6 q (ends_at hs hq)⟩

/-- **C57, command lines.** A line of words, however each of them is written, is one command: its words are, in this
order, exactly the words written. -/
theorem C57_command_line (hs : cc.Sane) (a : Str × List Item) (as : List (Str × List Item))
    (h : ∀ x ∈ a :: as, Argument cc x) (hf : FirstWord cc a.1) :
    ∃ ws, ws.map wordItems = (a :: as).map (·.2) ∧
      Whole cc (wordsText ((a :: as).map (·.1))) [one (wordsCommand ws)] := by
  have key : ∀ as : List (Str × List Item), (∀ x ∈ as, Argument cc x) → ∃ ws : List (Str × SWord),
      ws.map (·.1) = as.map (·.1) ∧ (ws.map (·.2)).map wordItems = as.map (·.2) ∧ ∀ w ∈ ws, WholeWord cc w.1 w.2 := by
    intro as
    induction as with
    | nil => exact fun _ => ⟨[], rfl, rfl, by simp⟩
    | cons a as ih =>
      intro h
      obtain ⟨ws, h1, h2, h3⟩ := ih fun x hx => h x (by simp [hx])
      obtain ⟨w, h4, h5⟩ := (h a (by simp)).whole hs
      refine ⟨(a.1, w) :: ws, by simp [h1], by simpa [h4] using h2, ?_⟩
      intro x hx
      rcases List.mem_cons.1 hx with rfl | hx
      · exact h5
      · exact h3 x hx
  obtain ⟨ws, h1, h2, h3⟩ := key as fun x hx => h x (by simp [hx])
  obtain ⟨w, h4, h5⟩ := (h a (by simp)).whole hs
  refine ⟨((a.1, w) :: ws).map (·.2), by simpa [h4] using h2, ?_⟩
  have := C53_command hs (a.1, w) ws (by
    intro x hx
    rcases List.mem_cons.1 hx with rfl | hx
    · exact h5
    · exact h3 x hx) hf
  rw [List.map_cons, h1] at this
  exact this

/-- **C57, no ambiguity.** A text is a way of writing at most one word. -/
theorem C57_one_reading (hs : cc.Sane) (is js : List Item) (p : Str) (hp : p ≠ []) (hh : p.head? ≠ some '#')
    (h : Written cc is p) (h' : Written cc js p) : is = js := by
  obtain ⟨w, h1, h2⟩ := C57_quote_removal hs is p hp hh h
  obtain ⟨v, h3, h4⟩ := C57_quote_removal hs js p hp hh h'
  have he : Gram.EndsWord (lex cc []) := by rw [lex_nil]; intro t r e; cases e
  have := (h2 [] he).1.symm.trans (h4 [] he).1
  have e : some w = some v := by injection this
  cases e
  exact h1.symm.trans h3

end

/-! ## An example: `a\*'b c'"$x\"${y}*\z"?` -/

def writtenSample : Str :=
  ['a', '\\', '*', '\'', 'b', ' ', 'c', '\'', '"', '$', 'x', '\\', '"', '$', '{', 'y', '}', '*', '\\', 'z', '"', '?']

def writtenItems : List Item :=
  [.chr 'a' false, .chr '*' true, .chr 'b' true, .chr ' ' true, .chr 'c' true, .param (.Var ['x']) true, .chr '"' true,
   .param (.Var ['y']) true, .chr '*' true, .chr '\\' true, .chr 'z' true, .active '?']

theorem written_sample : Written ascii writtenItems writtenSample := by
  refine .bare (c := 'a') (by unfold Bare; decide) (.escaped (by decide) (.single (s := ['b', ' ', 'c']) (by decide) ?_))
  refine .double (js := [.param (.Var ['x']) true, .chr '"' true, .param (.Var ['y']) true, .chr '*' true, .chr '\\' true, .chr 'z' true])
    (s := ['$', 'x', '\\', '"', '$', '{', 'y', '}', '*', '\\', 'z']) ?_ (.bare (c := '?') (by unfold Bare; decide) .nil)
  refine .param (w := ['$', 'x']) (.var ⟨'x', [], rfl, .inr (by decide), by simp⟩ ?_) (.escaped (by decide) ?_)
  · rintro c hc
    cases hc
    decide
  refine .param (w := ['$', '{', 'y', '}']) (.display (q := .Var ['y']) ⟨'y', [], rfl, .inr (by decide), by simp⟩ ?_) ?_
  · rintro c hc
    cases hc
    decide
  exact .char (by decide) (.backslash (by decide) (by decide) .nil)

/-- The hypotheses of the theorems are met by this word. -/
example : Argument ascii (writtenSample, writtenItems) :=
  ⟨by decide, by decide, by decide, written_sample⟩

example : ∃ w, wordItems w = writtenItems ∧ ∀ rest, Gram.EndsWord (lex ascii rest) →
    Parses (B := DefaultBuilder) .wordPreserveTrailingWhitespace (parserOn (lex ascii (writtenSample ++ rest)) ())
      (some w) (lex ascii rest) () :=
  C57_quote_removal ascii_sane _ _ (by decide) (by decide) written_sample

end Conch
