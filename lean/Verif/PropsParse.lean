import Verif.Parts
import Verif.ExactLex
import Verif.PropsLexer
import Verif.PropsIter
import Verif.DefaultBuilder
/-!
# Properties C08 and C13-C17: termination, panics, progress, end of input

All statements are about `PSt CIter B`: the parser on the code's token stream, in any state, with
any builder `B`.
-/
namespace Conch
open Spec

/-- The tokens a parser still has, with their positions. -/
abbrev PSt.rest {B : Builder} (s : PSt CIter B) : List PTok := s.it.1.abs.rest

/-- `Parser::pos`, parse.rs:460-462. -/
abbrev PSt.pos {B : Builder} (s : PSt CIter B) : SourcePos := TokStream.pos s.it

theorem PSt.pos_eq {B : Builder} (s : PSt CIter B) : s.pos = s.it.1.abs.pos := cSim.pos rfl

theorem basic_inv {B : Builder} (s : PSt AIter B) : (Theory.parts B s.it True).Inv s := ⟨.all, trivial⟩

/-! ## C13 -/

/-- C13: every public parsing method returns, on every token stream, in every state, with every
builder. (The budget of the model bounds the recursion depth by the number of tokens left, and the
iterations of every loop.) -/
theorem C13_terminates {B : Builder} (m : Method) (s : PSt CIter B) : (m.run s).1 ≠ .fuel := by
  have h := tr_method m (basic_inv s.abs)
  unfold Theory.Tr at h
  rw [Method.run_abs] at h
  intro h'
  rw [h'] at h
  exact h

/-! ## C14 -/

/-- C14: a parsing method only panics inside the builder, or at parse.rs:1326 while parsing a
here-document; and then there is a backslash among the tokens: the last one (but for whitespace), unless
there are backticks. Missing from the full property: this does happen, see
`C14_panics_in_heredoc`. -/
theorem C14_no_panic_partial {B : Builder} (m : Method) (s : PSt CIter B) (line : Nat)
    (h : (m.run s).1 = .panic line) (hB : NoPanic B) :
    line = 1326 ∧ (∃ x ∈ s.rest, HeredocOp x.2) ∧ (∃ x ∈ s.rest, x.2 = .Backslash) ∧
    (EndsInBackslash (s.rest.map (·.2)) ∨ ∃ x ∈ s.rest, x.2 = .Backtick) := by
  have ht := tr_method m (basic_inv s.abs)
  unfold Theory.Tr at ht
  rw [Method.run_abs] at ht
  rw [h] at ht
  rcases ht with ⟨-, h1⟩ | ⟨h1, ⟨t, h2, h3⟩, ⟨q, e, h4⟩, -⟩
  · exact absurd hB h1
  obtain ⟨x, hx, rfl⟩ := List.mem_map.1 h2
  refine ⟨h1, ⟨x, hx, h3⟩, ?_, ?_⟩
  · rcases h4.toks .Backslash (by simp [AIter.toks]) with h5 | ⟨w, h5, -⟩
    · obtain ⟨y, hy, hy'⟩ := List.mem_map.1 h5
      exact ⟨y, hy, hy'⟩
    · cases h5
  · by_cases hb : ∃ x ∈ s.rest, x.2 = .Backtick
    · exact .inr hb
    · refine .inl (h4.ends ?_ ⟨[], [], rfl, by simp [OnlyWs]⟩)
      intro t ht he
      obtain ⟨y, hy, rfl⟩ := List.mem_map.1 ht
      exact hb ⟨y, hy, he⟩

/-- C14: in a parser without backticks, whose last token (but for whitespace) is not a backslash, nothing
panics: for instance when the input ends with a newline. -/
theorem C14_no_panic_at_line_end_partial {B : Builder} (m : Method) (s : PSt CIter B)
    (hB : NoPanic B) (hs : ∀ x ∈ s.rest, x.2 ≠ .Backtick) (he : ¬ EndsInBackslash (s.rest.map (·.2))) :
    ∀ line, (m.run s).1 ≠ .panic line := fun line h => by
  obtain ⟨-, -, -, h' | ⟨x, hx, h'⟩⟩ := C14_no_panic_partial m s line h hB
  · exact he h'
  · exact hs x hx h'

/-- C14: without here-document operators nothing panics. -/
theorem C14_no_panic_without_heredoc_partial {B : Builder} (m : Method) (s : PSt CIter B)
    (hB : NoPanic B) (hs : ∀ x ∈ s.rest, ¬ HeredocOp x.2) : ∀ line, (m.run s).1 ≠ .panic line :=
  fun line h => by
    obtain ⟨-, ⟨x, hx, h'⟩, -⟩ := C14_no_panic_partial m s line h hB
    exact hs x hx h'

/-! ## C15 -/

theorem tr_command_progress {B : Builder} {T : Theory B} {s : PSt AIter B} (hi : T.Inv s) :
    T.Tr (run completeCommand) s (fun a s' => a ≠ none → s'.len < s.len) :=
  tr_run hi fun _ h => tr_completeCommand h hi (by omega)

/-- C15: a command that was parsed consumed at least one token. -/
theorem C15_command_consumes {B : Builder} (s s' : PSt CIter B) (c : B.Command)
    (h : Method.completeCommand.run s = (.ok (some c), s')) : s'.rest.length < s.rest.length := by
  have ht := tr_command_progress (basic_inv s.abs)
  unfold Theory.Tr at ht
  have := Method.run_abs .completeCommand s
  rw [h] at this
  change run completeCommand s.abs = _ at this
  rw [this] at ht
  exact ht.2 (by simp)

/-- `Yields p xs p'`: the first calls of the iterator `p` yield the items `xs`; `p'` is the
iterator after them. -/
inductive Yields {B : Builder} : ParserIterator CIter B →
    List (Except (ParseError B.Error) B.Command) → ParserIterator CIter B → Prop
  | nil {p} : Yields p [] p
  | cons {p x p' xs p''} : p.next = (.ok (some x), p') → Yields p' xs p'' → Yields p (x :: xs) p''

/-! ## C17 -/

/-- What `complete_command` returns when only comments are left. -/
def Spec.commentsResult {B : Builder} (ns : List Nl) (b : B.State) :
    Res B.Error (Option B.Command) × B.State :=
  if ns = [] then (.ok none, b)
  else match B.call (.comments ns) b with
    | (.ok _, b') => (.ok none, b')
    | (.err e, b') => (.err (.Custom e), b')
    | (.panic, b') => (.panic 0, b')

theorem completeCommand_blank {B : Builder} {R : Rec AIter B} {l bs : List PTok} {ns : List Nl}
    {e : SourcePos} {b : B.State} (h : Lines l ns bs) (hb : Blanks bs) :
    completeCommand R (st l e b) = ((commentsResult ns b).1, st [] e (commentsResult ns b).2) := by
  unfold completeCommand
  have := linebreak_eq (e := e) (b := b) (bs := bs) (r := []) (by simpa using h) hb
    (by simp [NoBlank]) (by simp [NoLineStart])
  rw [bind_ok this, peek_bind]
  cases ns with
  | nil => rfl
  | cons n ns =>
    simp only [commentsResult]
    show (call (Call.comments (n :: ns)) >>= fun _ => pure none) _ = _
    show P.bind _ _ _ = _
    unfold P.bind call
    simp only
    generalize B.call (.comments (n :: ns)) b = z
    obtain ⟨z, b'⟩ := z
    cases z <;> rfl

theorem completeCommand_nonblank {B : Builder} {R : Rec AIter B} {l bs r : List PTok} {ns : List Nl}
    {e : SourcePos} {b : B.State} (h : Lines l ns (bs ++ r)) (hb : Blanks bs) (hr : NoBlank r)
    (hn : NoLineStart r) (hne : r ≠ []) :
    (completeCommand R (st l e b)).1 ≠ .ok none := by
  unfold completeCommand
  rw [bind_ok (linebreak_eq h hb hr hn), peek_bind]
  obtain ⟨x, r, rfl⟩ := List.exists_cons_of_ne_nil hne
  simp only [List.head?_cons, Option.map_some, Option.isSome_some]
  show (P.bind _ _ _).1 ≠ _
  unfold P.bind
  generalize completeCommandWithComments R ns _ = z
  obtain ⟨z, b'⟩ := z
  cases z <;> simp [pure_eq]

/-- C17: when the remaining tokens are only blanks, newlines and comments, `complete_command`
consumes them all, calls the builder's `comments` with the comments in order if there is any line,
and returns `Ok(None)` (or the builder's error). -/
theorem C17_only_blanks_left {B : Builder} (s : PSt CIter B) (ns : List Nl) (bs : List PTok)
    (h : Lines s.rest ns bs) (hb : Blanks bs) :
    (Method.completeCommand.run s).1 = (commentsResult ns s.b).1 ∧
    (Method.completeCommand.run s).2.rest = [] ∧
    (Method.completeCommand.run s).2.b = (commentsResult ns s.b).2 := by
  have h1 := Method.run_abs .completeCommand s
  have h2 := completeCommand_blank (B := B) (R := Rec.fix (TokStream.len s.abs.it + 1))
    (e := s.abs.it.endPos) (b := s.b) h hb
  change Method.completeCommand.run s.abs = _ at h2
  rw [h2, Prod.mk.injEq] at h1
  refine ⟨h1.1.symm, ?_, ?_⟩
  · exact (congrArg (fun x => x.it.rest) h1.2).symm
  · exact (congrArg (fun x => x.b) h1.2).symm

/-- C17: `Ok(None)` means that only blanks, newlines and comments were left, that all of them were
consumed, and that the builder's `comments` was called with the comments, in order, and nothing
else. -/
theorem C17_none_means_blanks {B : Builder} (s s' : PSt CIter B)
    (h : Method.completeCommand.run s = (.ok none, s')) :
    ∃ ns bs, Lines s.rest ns bs ∧ Blanks bs ∧ s'.rest = [] ∧
      (.ok none, s'.b) = commentsResult ns s.b := by
  obtain ⟨ns, bs, r, h1, h2, h3, h4⟩ := lines_split s.rest
  by_cases hr : r = []
  · subst hr
    rw [List.append_nil] at h1
    obtain ⟨h5, h6, h7⟩ := C17_only_blanks_left s ns bs h1 h2
    rw [h] at h5 h6 h7
    exact ⟨ns, bs, h1, h2, h6, Prod.ext h5 h7⟩
  · exfalso
    have h5 := completeCommand_nonblank (B := B) (R := Rec.fix (TokStream.len s.abs.it + 1))
      (e := s.abs.it.endPos) (b := s.b) h1 h2 h3 h4 hr
    have h6 := Method.run_abs .completeCommand s
    change (Method.completeCommand.run s.abs).1 ≠ _ at h5
    rw [h6, h] at h5
    exact h5 rfl

/-- C15: without remaining tokens there are no items. -/
theorem completeCommand_empty {B : Builder} (s : PSt CIter B) (h : s.rest = []) :
    (Method.completeCommand.run s).1 = .ok none := by
  have := (C17_only_blanks_left s [] [] (by rw [h]; exact .nil) .nil).1
  exact this

/-- C15: a parser over `n` tokens yields at most `n` items. -/
theorem C15_at_most_n_items {B : Builder} (s : PSt CIter B) (p : ParserIterator CIter B)
    (xs : List (Except (ParseError B.Error) B.Command)) (h : Yields ⟨some s⟩ xs p) :
    xs.length ≤ s.rest.length := by
  generalize hp : (⟨some s⟩ : ParserIterator CIter B) = p0 at h
  induction h generalizing s with
  | nil => simp
  | @cons p x p' xs p'' h1 h2 ih =>
    subst hp
    unfold ParserIterator.next at h1
    simp only at h1
    generalize hz : run completeCommand s = z at h1
    obtain ⟨z, s1⟩ := z
    cases z with
    | ok a =>
      cases a with
      | none => simp at h1
      | some c =>
        simp only [Prod.mk.injEq] at h1
        have := C15_command_consumes s s1 c hz
        have := ih s1 h1.2
        simp; omega
    | err e =>
      simp only [Prod.mk.injEq] at h1
      obtain ⟨-, rfl⟩ := h1
      have : xs = [] := by
        cases h2 with
        | nil => rfl
        | cons h => simp [ParserIterator.next] at h
      subst this
      by_cases hs : s.rest = []
      · have := completeCommand_empty s hs
        change (run completeCommand s).1 = _ at this
        rw [hz] at this
        cases this
      · have := List.length_pos_iff.2 hs
        simp; omega
    | panic n => simp at h1
    | fuel => simp at h1

/-- C15: the iteration ends: after finitely many items `next` returns `None` (or panics, which
C14 restricts). -/
theorem C15_iteration_ends {B : Builder} (s : PSt CIter B) :
    ∃ xs p, Yields ⟨some s⟩ xs p ∧ (p.next.1 = .ok none ∨ ∃ line, p.next.1 = .panic line) := by
  generalize hn : s.rest.length = n
  induction n using Nat.strongRecOn generalizing s with
  | ind n ih =>
    have h0 : (ParserIterator.next ⟨some s⟩).1 = _ := rfl
    conv at h0 => rhs; unfold ParserIterator.next
    simp only at h0
    generalize hz : run completeCommand s = z at h0
    obtain ⟨z, s1⟩ := z
    cases z with
    | ok a =>
      cases a with
      | none => exact ⟨[], _, .nil, .inl h0⟩
      | some c =>
        have := C15_command_consumes s s1 c hz
        obtain ⟨xs, p, h1, h2⟩ := ih _ (by omega) s1 rfl
        refine ⟨.ok c :: xs, p, .cons ?_ h1, h2⟩
        unfold ParserIterator.next; simp only; rw [hz]
    | err e =>
      refine ⟨[.error e], ⟨none⟩, .cons ?_ .nil, .inl rfl⟩
      unfold ParserIterator.next; simp only; rw [hz]
    | panic n => exact ⟨[], _, .nil, .inr ⟨n, h0⟩⟩
    | fuel =>
      have := C13_terminates .completeCommand s
      change (run completeCommand s).1 ≠ _ at this
      rw [hz] at this
      exact absurd rfl this

/-! ## C16 -/

/-- The iterator after `n` further calls. -/
def ParserIterator.nth {B : Builder} (p : ParserIterator CIter B) : Nat → ParserIterator CIter B
  | 0 => p
  | n + 1 => (p.nth n).next.2

/-- C16: after `None` or an error the iterator has dropped the parser together with the builder,
and every further call returns `None`. -/
theorem C16_fused {B : Builder} (p : ParserIterator CIter B)
    (h : p.next.1 = .ok none ∨ ∃ e, p.next.1 = .ok (some (.error e))) (n : Nat) :
    (p.nth (n + 1)).parser = none ∧ (p.nth (n + 1)).next = (.ok none, p.nth (n + 1)) := by
  have h0 : p.next.2.parser = none := by
    unfold ParserIterator.next at h ⊢
    split at h
    · assumption
    · rename_i s _
      generalize run completeCommand s = z at h
      obtain ⟨z, s1⟩ := z
      cases z with
      | ok a => cases a <;> simp_all
      | err e => simp_all
      | panic n => simp_all
      | fuel => simp_all
  have h1 : ∀ q : ParserIterator CIter B, q.parser = none → q.next = (.ok none, q) := by
    intro q hq
    unfold ParserIterator.next
    rw [hq]
  induction n with
  | zero => exact ⟨h0, h1 _ h0⟩
  | succ n ih =>
    have : p.nth (n + 1 + 1) = p.nth (n + 1) := by
      show (p.nth (n + 1)).next.2 = _
      rw [ih.2]
    rw [this]
    exact ih

/-! ## C08 -/

/-- The position after the text `src`: its bytes, its newlines, and the bytes after the last
newline. -/
def Spec.posOf (src : Str) : SourcePos :=
  { byte := src.byteLen
    line := 1 + src.count '\n'
    col := 1 + Str.byteLen (src.reverse.takeWhile (· ≠ '\n')) }

/-- A sequence of public parsing methods called one after the other, all successful. -/
inductive Calls {B : Builder} : PSt CIter B → PSt CIter B → Prop
  | nil {s} : Calls s s
  | cons {s s1 s'} (m : Method) {a} : m.run s = (.ok a, s1) → Calls s1 s' → Calls s s'

/-- A sequence of public parsing methods called one after the other, each of which returned `Ok` or `Err`. -/
inductive History {B : Builder} : PSt CIter B → PSt CIter B → Prop
  | nil {s} : History s s
  | ok {s s1 s'} (m : Method) {a} : m.run s = (.ok a, s1) → History s1 s' → History s s'
  | err {s s1 s'} (m : Method) {e} : m.run s = (.err e, s1) → History s1 s' → History s s'

theorem Calls.history {B : Builder} {s s' : PSt CIter B} (h : Calls s s') : History s s' := by
  induction h with
  | nil => exact .nil
  | cons m h _ ih => exact .ok m h ih

/-- `complete_command` called until it returns `Ok(None)`, without an error. -/
inductive ParsedToEnd {B : Builder} : PSt CIter B → PSt CIter B → Prop
  | none {s s'} : Method.completeCommand.run s = (.ok none, s') → ParsedToEnd s s'
  | some {s c s1 s'} : Method.completeCommand.run s = (.ok (some c), s1) → ParsedToEnd s1 s' →
      ParsedToEnd s s'

theorem byteLen_append (a b : Str) : Str.byteLen (a ++ b) = Str.byteLen a + Str.byteLen b := by
  simp [Str.byteLen]

theorem byteLen_reverse (a : Str) : Str.byteLen a.reverse = Str.byteLen a := by
  unfold Str.byteLen
  rw [List.map_reverse, List.sum_reverse]

theorem posOf_append_noNewline (a b : Str) (h : '\n' ∉ b) :
    posOf (a ++ b) = { posOf a with byte := (posOf a).byte + b.byteLen,
                                    col := (posOf a).col + b.byteLen } := by
  have h1 : (b.reverse).takeWhile (· ≠ '\n') = b.reverse := by
    have : ∀ x ∈ b.reverse, (x ≠ '\n') := by rintro x hx rfl; exact h (by simpa using hx)
    generalize b.reverse = l at this
    induction l with
    | nil => rfl
    | cons x l ih =>
      have h1 : (decide (x ≠ '\n')) = true := by simpa using this x (by simp)
      rw [List.takeWhile_cons, h1, ih (fun y hy => this y (by simp [hy]))]
      rfl
  have h2 : b.count '\n' = 0 := List.count_eq_zero.2 h
  unfold posOf
  rw [List.reverse_append, List.takeWhile_append, h1]
  simp [byteLen_append, h2, byteLen_reverse]
  omega

theorem posOf_newline (a : Str) :
    posOf (a ++ ['\n']) = { byte := (posOf a).byte + 1, line := (posOf a).line + 1, col := 1 } := by
  unfold posOf
  rw [List.reverse_append]
  simp [Str.byteLen]
  constructor
  · decide
  · omega

/-- Tokens that contain a newline only if they are one. -/
def NlOk (t : Token) : Prop := t ≠ .Newline → '\n' ∉ t.asStr

theorem advance_posOf (a : Str) {t : Token} (h : NlOk t) :
    (posOf a).advance t = posOf (a ++ t.asStr) := by
  by_cases ht : t = .Newline
  · subst ht
    show _ = posOf (a ++ ['\n'])
    rw [posOf_newline]
    rfl
  · have h' := h ht
    rw [posOf_append_noNewline _ _ h']
    have hz : t.newlines = 0 := by
      cases t <;> first
        | rfl
        | exact absurd rfl ht
        | (simp only [Token.newlines, Token.asStr] at *
           rw [List.length_eq_zero_iff, List.filter_eq_nil_iff]
           intro x hx hx'
           have : x = '\n' := by simpa using hx'
           exact h' (this ▸ hx))
    simp [SourcePos.advance, hz, Token.len]

theorem posAfter_posOf (ts : List Token) (h : ∀ t ∈ ts, NlOk t) (a : Str) :
    posAfter (posOf a) ts = posOf (a ++ (ts.map Token.asStr).flatten) := by
  induction ts generalizing a with
  | nil => simp [posAfter]
  | cons t ts ih =>
    have : posAfter (posOf a) (t :: ts) = posAfter ((posOf a).advance t) ts := rfl
    rw [this, advance_posOf a (h t (by simp)), ih (fun u hu => h u (by simp [hu]))]
    simp

theorem newline_opStart : opStart '\n' := ⟨(['\n'], .Newline), by decide, rfl⟩

theorem operators_nlOk : ∀ p ∈ operators, NlOk p.2 := by
  have : ∀ p ∈ operators, p.2 ≠ .Newline → '\n' ∉ p.2.asStr := by decide
  exact this

theorem lex_nlOk (cc : CharClass) (src : Str) : ∀ t ∈ lex cc src, NlOk t := by
  have plain : ∀ {c : Char}, Plain cc c → c ≠ '\n' := by
    rintro c h rfl; exact h.2.1 newline_opStart
  have : ∀ {s ts}, Lexes cc s ts → ∀ t ∈ ts, NlOk t := by
    intro s ts h
    induction h with
    | nil => simp
    | trailingBackslash => simp [NlOk, Token.asStr]
    | escape h1 _ ih =>
      intro t ht
      rcases List.mem_cons.1 ht with rfl | ht
      · simp [NlOk, Token.asStr]
      rcases List.mem_cons.1 ht with rfl | ht
      · cases h1 with
        | backslash => simp [NlOk, Token.asStr]
        | op h => exact operators_nlOk _ h
        | blank _ h _ =>
          rintro - h'; simp [Token.asStr] at h'; subst h'; exact h newline_opStart
        | name h _ => rintro - h'; simp [Token.asStr] at h'; exact plain h h'.symm
        | literal h _ => rintro - h'; simp [Token.asStr] at h'; exact plain h h'.symm
      · exact ih t ht
    | op h1 _ ih =>
      intro t ht
      rcases List.mem_cons.1 ht with rfl | ht
      · exact operators_nlOk _ h1.1
      · exact ih t ht
    | blank _ h2 _ h4 _ ih =>
      intro t ht
      rcases List.mem_cons.1 ht with rfl | ht
      · rintro - h'
        rcases List.mem_cons.1 h' with h' | h'
        · exact h2 (h' ▸ newline_opStart)
        · exact (h4.1 _ h').2 rfl
      · exact ih t ht
    | name h2 _ h4 _ ih =>
      intro t ht
      rcases List.mem_cons.1 ht with rfl | ht
      · rintro - h'
        rcases List.mem_cons.1 h' with h' | h'
        · exact plain h2 h'.symm
        · exact plain (h4.1 _ h').1 rfl
      · exact ih t ht
    | literal h2 _ h4 _ ih =>
      intro t ht
      rcases List.mem_cons.1 ht with rfl | ht
      · rintro - h'
        rcases List.mem_cons.1 h' with h' | h'
        · exact plain h2 h'.symm
        · exact plain (h4.1 _ h') rfl
      · exact ih t ht
  exact this (lex_lexes cc src)

theorem run_endPos {B : Builder} {m : Method} {s s' : PSt CIter B} {a} (h : m.run s = (.ok a, s')) :
    s'.it.1.abs.endPos = s.it.1.abs.endPos := by
  have ht := tr_method m (basic_inv s.abs)
  unfold Theory.Tr at ht
  rw [Method.run_abs, h] at ht
  exact ht.1.endPos

theorem Calls.endPos {B : Builder} {s s' : PSt CIter B} (h : Calls s s') :
    s'.it.1.abs.endPos = s.it.1.abs.endPos := by
  induction h with
  | nil => rfl
  | cons m h _ ih => rw [ih, run_endPos h]

/-- C08: a parser of the source `src` whose tokens are used up by successful calls of public
methods, in any order, is at the position after `src`. -/
theorem C08_pos_at_end {B : Builder} (cc : CharClass) (src : Str) (b : B.State) (s : PSt CIter B)
    (h : Calls (PSt.new (lex cc src) b) s) (hs : s.rest = []) : s.pos = posOf src := by
  have h1 := h.endPos
  have h3 : s.it.1.abs.pos = s.it.1.abs.endPos := by
    unfold PSt.rest at hs
    generalize s.it.1.abs = a at hs
    unfold AIter.pos
    rw [hs]
  rw [PSt.pos_eq, h3, h1]
  have : (PSt.new (lex cc src) b : PSt CIter B).it.1.abs = AIter.ofTokens (lex cc src) :=
    cSim.ofTokens _
  rw [this]
  show posAfter .new (lex cc src) = _
  have h2 := posAfter_posOf (lex cc src) (lex_nlOk cc src) []
  rw [C01_lexer_loses_nothing] at h2
  exact h2

theorem posAfter_line (ts : List Token) (p : SourcePos) :
    (posAfter p ts).byte = p.byte + Str.byteLen (ts.map Token.asStr).flatten ∧
      (posAfter p ts).line = p.line + (ts.map Token.asStr).flatten.count '\n' := by
  induction ts generalizing p with
  | nil => exact ⟨rfl, rfl⟩
  | cons t ts ih =>
    have : posAfter p (t :: ts) = posAfter (p.advance t) ts := rfl
    rw [this]
    obtain ⟨h1, h2⟩ := ih (p.advance t)
    have hl : t.newlines = t.asStr.count '\n' := by
      cases t <;> first | rfl | (rw [List.count_eq_length_filter]; rfl) | (rename_i d; cases d <;> rfl)
    rw [h1, h2, List.map_cons, List.flatten_cons, byteLen_append, List.count_append]
    unfold SourcePos.advance
    dsimp only
    rw [hl]
    have : t.len = Str.byteLen t.asStr := by cases t <;> rfl
    omega

/-- C08, for parsers over any stream of tokens (of another lexer, say: words and blanks may contain
newlines): the byte offset and the line at the end are those of the text of the tokens. (The column
is not: after a token with a newline inside it is 1.) -/
theorem C08_line_of_any_tokens {B : Builder} (ts : List Token) (b : B.State) (s : PSt CIter B)
    (h : Calls (PSt.new ts b) s) (hs : s.rest = []) :
    s.pos.byte = Str.byteLen (ts.map Token.asStr).flatten ∧
      s.pos.line = 1 + (ts.map Token.asStr).flatten.count '\n' := by
  have h1 := h.endPos
  have h3 : s.it.1.abs.pos = s.it.1.abs.endPos := by
    unfold PSt.rest at hs
    generalize s.it.1.abs = a at hs
    unfold AIter.pos
    rw [hs]
  rw [PSt.pos_eq, h3, h1]
  have : (PSt.new ts b : PSt CIter B).it.1.abs = AIter.ofTokens ts := cSim.ofTokens _
  rw [this]
  have h2 := posAfter_line ts .new
  exact ⟨by rw [← Nat.zero_add (Str.byteLen _)]; exact h2.1, h2.2⟩

/-- C08: …in particular after `complete_command` was called until it returned `Ok(None)`. -/
theorem C08_pos_after_all_commands {B : Builder} (cc : CharClass) (src : Str) (b : B.State)
    (s : PSt CIter B) (h : ParsedToEnd (PSt.new (lex cc src) b) s) : s.pos = posOf src := by
  have : ∀ {s0 : PSt CIter B}, ParsedToEnd s0 s → Calls s0 s ∧ s.rest = [] := by
    intro s0 h
    clear * - h
    induction h with
    | @none s s' h =>
      obtain ⟨_, _, _, _, h', _⟩ := C17_none_means_blanks s s' h
      exact ⟨.cons _ h .nil, h'⟩
    | some h _ ih => exact ⟨.cons _ h ih.1, ih.2⟩
  obtain ⟨h1, h2⟩ := this h
  exact C08_pos_at_end cc src b s h1 h2

/-! ## Concrete cases -/

/-- The line of a panic. -/
def Res.line {ε α : Type} : Res ε α → Option Nat
  | .panic n => some n
  | _ => none

theorem Res.line_eq {ε α : Type} {r : Res ε α} {n : Nat} (h : r.line = some n) : r = .panic n := by
  cases r <;> simp_all [Res.line]

/-- A parser of the given source, with the builder that builds nothing. -/
def parserOf (src : String) : PSt CIter EmptyBuilder := PSt.new (lex ascii src.toList) ()

/-- C14, the case that is missing: a here-document that ends in a backslash panics, although the
builder does not. The backslash may be followed by tabs that are removed, or stand before the end of
backticks. -/
theorem C14_panics_in_heredoc :
    (Method.completeCommand.run (parserOf "cat <<E\n\\")).1 = .panic 1326 ∧
    (Method.completeCommand.run (parserOf "cat <<-E\n\\\t")).1 = .panic 1326 ∧
    (Method.completeCommand.run (parserOf "`cat <<E\n\\\\`\n")).1 = .panic 1326 ∧
    NoPanic EmptyBuilder := by
  refine ⟨Res.line_eq (by decide +kernel), Res.line_eq (by decide +kernel),
    Res.line_eq (by decide +kernel), ?_⟩
  intro c b _
  cases c <;> simp [EmptyBuilder.call]

/-- Calls `complete_command` until it returns `Ok(None)`. -/
def runAll {B : Builder} : Nat → PSt CIter B → Option (PSt CIter B)
  | 0, _ => none
  | n + 1, s =>
    match Method.completeCommand.run s with
    | (.ok none, s') => some s'
    | (.ok (some _), s') => runAll n s'
    | _ => none

theorem runAll_sound {B : Builder} {n : Nat} {s s' : PSt CIter B} (h : runAll n s = some s') :
    ParsedToEnd s s' := by
  induction n generalizing s with
  | zero => simp [runAll] at h
  | succ n ih =>
    unfold runAll at h
    split at h
    · rename_i h'; cases h; exact .none h'
    · rename_i h'; exact .some h' (ih h)
    · simp at h

/-- C08 is not vacuous: a source with a here-document, nested backticks, multi-byte characters and
look-ahead is parsed to its end. -/
example : ∃ s, ParsedToEnd
    (parserOf "# é\nf() { cat <<E; }\nx `a \\`b\\``\nE\nif a; then b \"$(c)\"; fi # d") s := by
  have h : (runAll 10 (parserOf
      "# é\nf() { cat <<E; }\nx `a \\`b\\``\nE\nif a; then b \"$(c)\"; fi # d")).isSome = true := by
    decide +kernel
  obtain ⟨s, hs⟩ := Option.isSome_iff_exists.1 h
  exact ⟨s, runAll_sound hs⟩

/-- C17: comments, newlines and blanks only. -/
example : Lines (parserOf " \n # x\n\\\n ").rest [⟨none⟩, ⟨some ['#', ' ', 'x']⟩]
    [(⟨7, 3, 1⟩, .Backslash), (⟨8, 3, 2⟩, .Newline), (⟨9, 4, 1⟩, .Whitespace [' '])] ∧
    Blanks [(⟨7, 3, 1⟩, .Backslash), (⟨8, 3, 2⟩, .Newline), (⟨9, 4, 1⟩, .Whitespace [' '])] := by
  have : (parserOf " \n # x\n\\\n ").rest =
      [(⟨0, 1, 1⟩, .Whitespace [' ']), (⟨1, 1, 2⟩, .Newline), (⟨2, 2, 1⟩, .Whitespace [' ']),
       (⟨3, 2, 2⟩, .Pound), (⟨4, 2, 3⟩, .Whitespace [' ']), (⟨5, 2, 4⟩, .Name ['x']),
       (⟨6, 2, 5⟩, .Newline), (⟨7, 3, 1⟩, .Backslash), (⟨8, 3, 2⟩, .Newline),
       (⟨9, 4, 1⟩, .Whitespace [' '])] := by decide +kernel
  rw [this]
  refine ⟨.cons (.newline (.ws .nil)) (.cons ?_ .nil), .escaped (.ws .nil)⟩
  exact Line.comment (bs := [(⟨2, 2, 1⟩, .Whitespace [' '])])
    (cs := [(⟨4, 2, 3⟩, .Whitespace [' ']), (⟨5, 2, 4⟩, .Name ['x'])]) (.ws .nil) (by decide)

/-- The items of the first `n` calls, up to the first call that yields none. -/
def items {B : Builder} : Nat → ParserIterator CIter B →
    List (Except (ParseError B.Error) B.Command) × ParserIterator CIter B
  | 0, p => ([], p)
  | n + 1, p =>
    match p.next with
    | (.ok (some x), p') => (x :: (items n p').1, (items n p').2)
    | _ => ([], p)

theorem items_sound {B : Builder} (n : Nat) (p : ParserIterator CIter B) :
    Yields p (items n p).1 (items n p).2 := by
  induction n generalizing p with
  | zero => exact .nil
  | succ n ih =>
    unfold items
    split
    · rename_i h; exact .cons h (ih _)
    · exact .nil

/-- C15: four items, the last one an error. -/
example : ∃ xs p, Yields ⟨some (parserOf "a; b\nc )")⟩ xs p ∧ xs.length = 4 := by
  have h : (items 10 ⟨some (parserOf "a; b\nc )")⟩).1.length = 4 := by decide +kernel
  have h' := items_sound 10 ⟨some (parserOf "a; b\nc )")⟩
  generalize items 10 ⟨some (parserOf "a; b\nc )")⟩ = z at h h'
  exact ⟨z.1, z.2, h', h⟩

end Conch
