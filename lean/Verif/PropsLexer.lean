import Verif.LexInv
import Mathlib.Data.List.Chain
/-!
# Properties C01–C07: the lexer
-/
namespace Conch
open Spec

theorem rem_iff {cc : CharClass} {s : Str} {ts : List Token} :
    Rem cc ⟨s, none⟩ ts ↔ Lexes cc s ts :=
  ⟨fun h => by cases h; assumption, fun h => .none h⟩

/-! ## C03: the token sequence is the specified one -/

/-- C03: a list of tokens is what the lexer yields for `src` iff it follows the lexical grammar
(longest operator; a backslash protects exactly one character; maximal runs). -/
theorem C03_tokens_iff_grammar (cc : CharClass) (src : Str) (ts : List Token) :
    lex cc src = ts ↔ Lexes cc src ts :=
  ⟨fun h => h ▸ lex_lexes cc src, fun h => lexes_unique (lex_lexes cc src) h⟩

/-- C03: the longest operator at the start of the input is the next token. -/
theorem C03_longest_operator (cc : CharClass) (o s : Str) (t : Token)
    (h : LongestOp (o ++ s) o t) : lex cc (o ++ s) = t :: lex cc s :=
  (C03_tokens_iff_grammar cc _ _).2 (.op h (lex_lexes cc s))

/-- A single character on its own is one token. -/
theorem lex_single (cc : CharClass) (c : Char) : lex cc [c] = [lexSingle cc c] := by
  have hs := lexSingle_spec cc c
  rw [C03_tokens_iff_grammar]
  generalize lexSingle cc c = t at hs
  cases hs with
  | backslash => exact .trailingBackslash
  | @op c t h =>
    refine Lexes.op (o := [c]) ⟨h, by simp, fun p hp hpre => ?_⟩ .nil
    simpa using hpre.length_le
  | blank h1 h2 h3 =>
    exact Lexes.blank (run := []) (s := []) h1 h2 h3 ⟨by simp, by simp⟩ .nil
  | name h1 h2 => exact Lexes.name (run := []) (s := []) h1 h2 ⟨by simp, by simp⟩ .nil
  | literal h1 h2 => exact Lexes.literal (run := []) (s := []) h1 h2 ⟨by simp, by simp⟩ .nil

/-- C03: a backslash followed by `c`: `Backslash`, then `c` lexed on its own, then the rest. -/
theorem C03_escape_protects_one (cc : CharClass) (c : Char) (s : Str) :
    lex cc ('\\' :: c :: s) = .Backslash :: (lex cc [c] ++ lex cc s) := by
  have hs := lexSingle_spec cc c
  rw [lex_single]
  exact (C03_tokens_iff_grammar cc _ _).2 (.escape hs (lex_lexes cc s))

/-- The character classes of ASCII, for the examples. -/
def ascii : CharClass := { alphabetic := Char.isAlpha, whitespace := Char.isWhitespace }

example : LongestOp "<<-a".toList "<<-".toList .DLessDash := by
  refine ⟨by decide, by decide, by decide⟩
example : lex ascii "\\&&&a<<-\t b1 1b$5".toList =
    [.Backslash, .Amp, .AndIf, .Name ['a'], .DLessDash, .Whitespace ['\t', ' '], .Name ['b', '1'],
      .Whitespace [' '], .Literal ['1', 'b'], .ParamPositional .Five] := by decide

/-! ## C01: nothing is lost -/

/-- C01: the texts of the tokens concatenate to the source. -/
theorem C01_lexer_loses_nothing (cc : CharClass) (src : Str) :
    ((lex cc src).map Token.asStr).flatten = src := by
  have : ∀ {s ts}, Lexes cc s ts → (ts.map Token.asStr).flatten = s := by
    intro s ts h
    induction h with
    | nil => rfl
    | trailingBackslash => rfl
    | escape h1 _ ih => simp [ih, single_asStr h1]; rfl
    | op h1 _ ih => simp [ih, operators_asStr _ h1.1]
    | blank _ _ _ _ _ ih => simp [ih, Token.asStr]
    | name _ _ _ _ ih => simp [ih, Token.asStr]
    | literal _ _ _ _ ih => simp [ih, Token.asStr]
  exact this (lex_lexes cc src)

/-- C01 for `concat_tokens`. -/
theorem C01_concat_tokens (cc : CharClass) (src : Str) : concatTokens (lex cc src) = src := by
  rw [concatTokens, List.flatMap_def, C01_lexer_loses_nothing]

/-! ## C02: shapes -/

/-- What each kind of token promises about its text. -/
def Spec.Shape (cc : CharClass) : Token → Prop
  | .Name s => ∃ c r, s = c :: r ∧ (c = '_' ∨ cc.alphabetic c = true) ∧
      ∀ d ∈ r, d = '_' ∨ cc.alphabetic d = true ∨ ('0' ≤ d ∧ d ≤ '9')
  | .Literal s => ∃ c r, s = c :: r ∧ ¬ (c = '_' ∨ cc.alphabetic c = true) ∧
      ∀ d ∈ s, cc.whitespace d = false ∧ d ≠ '\\' ∧ ¬ opStart d
  | .Whitespace s => s ≠ [] ∧ ∀ d ∈ s, cc.whitespace d = true ∧ d ≠ '\n'
  | t => (t.asStr, t) ∈ operators ∨ t = .Backslash

/-- Tokens whose text is not fixed. -/
def Spec.isVar : Token → Bool
  | .Name _ | .Literal _ | .Whitespace _ => true
  | _ => false

theorem operators_noWord : ∀ p ∈ operators, isVar p.2 = false := by decide

theorem operators_shape (cc : CharClass) : ∀ p ∈ operators, Shape cc p.2 := by
  have : ∀ p ∈ operators, (p.2.asStr, p.2) ∈ operators := by decide
  intro p hp
  have h1 := this p hp
  have h2 := operators_noWord p hp
  rcases hq : p.2 <;> rw [hq] at h1 h2 <;> first | exact .inl h1 | cases h2

theorem nameStart_iff {cc : CharClass} {c : Char} :
    cc.nameStart c = true ↔ c = '_' ∨ cc.alphabetic c = true := by
  simp [CharClass.nameStart]

theorem nameChar_iff {cc : CharClass} {c : Char} :
    cc.nameChar c = true ↔ c = '_' ∨ cc.alphabetic c = true ∨ ('0' ≤ c ∧ c ≤ '9') := by
  simp only [CharClass.nameChar, Bool.or_eq_true, nameStart_iff, isDigit, Bool.and_eq_true,
    decide_eq_true_eq]
  constructor
  · rintro (h | h | h)
    · exact .inr (.inr h)
    · exact .inl h
    · exact .inr (.inl h)
  · rintro (h | h | h)
    · exact .inr (.inl h)
    · exact .inr (.inr h)
    · exact .inl h

theorem ne_nl_of_not_opStart {c : Char} (h : ¬ opStart c) : c ≠ '\n' := by
  rintro rfl; exact h (opStart_iff.2 (by decide))

theorem single_shape {cc : CharClass} {c : Char} {t : Token} (h : Single cc c t) :
    Shape cc t := by
  cases h with
  | backslash => exact .inr rfl
  | op h => exact operators_shape cc _ h
  | blank _ h2 h3 => exact ⟨by simp, by simpa using ⟨h3, ne_nl_of_not_opStart h2⟩⟩
  | name _ h => exact ⟨_, _, rfl, nameStart_iff.1 h, by simp⟩
  | literal h h' =>
    exact ⟨_, _, rfl, by rw [← nameStart_iff, h']; simp, by simpa using ⟨h.2.2, h.1, h.2.1⟩⟩

/-- C02: every token has the shape of its kind. -/
theorem C02_token_shapes (cc : CharClass) (src : Str) : ∀ t ∈ lex cc src, Shape cc t := by
  have : ∀ {s ts}, Lexes cc s ts → ∀ t ∈ ts, Shape cc t := by
    intro s ts h
    induction h with
    | nil => simp
    | trailingBackslash => simp [Shape]
    | escape h1 _ ih =>
      intro t ht
      simp only [List.mem_cons] at ht
      rcases ht with rfl | rfl | ht
      · exact .inr rfl
      · exact single_shape h1
      · exact ih _ ht
    | op h1 _ ih => exact List.forall_mem_cons.2 ⟨operators_shape cc _ h1.1, ih⟩
    | blank h1 h2 h3 h4 _ ih =>
      refine List.forall_mem_cons.2 ⟨⟨by simp, List.forall_mem_cons.2
        ⟨⟨h3, ne_nl_of_not_opStart h2⟩, fun d hd => h4.1 d hd⟩⟩, ih⟩
    | name h1 h2 h3 _ ih =>
      exact List.forall_mem_cons.2 ⟨⟨_, _, rfl, nameStart_iff.1 h2,
        fun d hd => nameChar_iff.1 (h3.1 d hd).2⟩, ih⟩
    | literal h1 h2 h3 _ ih =>
      refine List.forall_mem_cons.2 ⟨⟨_, _, rfl, by rw [← nameStart_iff, h2]; simp,
        List.forall_mem_cons.2 ⟨⟨h1.2.2, h1.1, h1.2.1⟩, fun d hd => ?_⟩⟩, ih⟩
      obtain ⟨a, b, c⟩ := h3.1 d hd
      exact ⟨c, a, b⟩
  exact this (lex_lexes cc src)

theorem shape_nonempty {cc : CharClass} {t : Token} (h : Shape cc t) : t.asStr ≠ [] := by
  have hop : ∀ p ∈ operators, p.1 ≠ [] := by decide
  cases t <;> simp only [Shape] at h <;>
    first
    | (obtain ⟨c, r, rfl, _⟩ := h; simp [Token.asStr]; done)
    | exact h.1
    | (rcases h with h | h
       · exact hop _ h
       · first | cases h; done | decide)

/-- C02: no token is empty. -/
theorem C02_tokens_nonempty (cc : CharClass) (src : Str) : ∀ t ∈ lex cc src, t.asStr ≠ [] :=
  fun t ht => shape_nonempty (C02_token_shapes cc src t ht)

/-- C02: never more tokens than characters. -/
theorem C02_token_count (cc : CharClass) (src : Str) : (lex cc src).length ≤ src.length := by
  have h1 := C01_lexer_loses_nothing cc src
  have h2 := C02_tokens_nonempty cc src
  generalize lex cc src = ts at h1 h2
  subst h1
  induction ts with
  | nil => simp
  | cons t ts ih =>
    have := List.length_pos_iff.2 (h2 t (by simp))
    have := ih (fun u hu => h2 u (by simp [hu]))
    simp; simp at this; omega

example : (lex ascii "a b".toList).length = 3 := by decide

/-! ## C04: density -/

/-- What a source looks like whose first token is a name, literal or whitespace. -/
theorem lexes_head {cc : CharClass} {s : Str} {t : Token} {ts : List Token}
    (h : Lexes cc s (t :: ts)) : match t with
      | .Name _ => ∃ c, s.head? = some c ∧ Plain cc c ∧ cc.nameStart c = true
      | .Literal w => ∃ c, s.head? = some c ∧ w.head? = some c ∧ Plain cc c
      | .Whitespace _ => ∃ c, s.head? = some c ∧ Blank cc c
      | _ => True := by
  cases s with
  | nil => cases lexes_nil h
  | cons c r =>
    rcases lexes_cons_inv h with ⟨_, _, h⟩ | ⟨_, _, _, _, _, _, h, _⟩ | ⟨_, _, _, _, _, _, h, h', _⟩ |
      ⟨_, _, _, _, h1, h2, _, h, _⟩ | ⟨_, _, _, h1, h2, _, h, _⟩ | ⟨_, _, _, h1, _, _, h, _⟩ <;>
      cases h
    · trivial
    · trivial
    · have := operators_noWord _ h'.1
      cases t <;> first | trivial | contradiction
    · exact ⟨_, rfl, h2, ne_nl_of_not_opStart h1⟩
    · exact ⟨_, rfl, h1, h2⟩
    · exact ⟨_, rfl, rfl, h1⟩

theorem escapes_head {b : Bool} {ts : List Token} : (escapes b ts).head? =
    ts.head?.map (fun t => (t, b)) := by
  cases ts <;> cases b <;> rfl

theorem not_absorbs_op {cc : CharClass} {t u : Token} (h : isVar t = false) :
    ¬ Absorbs cc t u := by
  cases t <;> first | cases h; done | simp [Absorbs]

/-- C04: whenever a token is directly followed by one it could have absorbed, it was escaped. -/
theorem C04_dense_tokens (cc : CharClass) (src : Str) :
    (escapes false (lex cc src)).IsChain (fun a b => Absorbs cc a.1 b.1 → a.2 = true) := by
  have : ∀ {s ts}, Lexes cc s ts →
      (escapes false ts).IsChain (fun a b => Absorbs cc a.1 b.1 → a.2 = true) := by
    intro s ts h
    induction h with
    | nil => exact .nil
    | trailingBackslash => exact .singleton _
    | escape h1 h2 ih =>
      refine List.isChain_cons.2 ⟨fun b _ h => by simp [Absorbs] at h, ?_⟩
      exact List.isChain_cons.2 ⟨fun b _ h => rfl, ih⟩
    | @op o t s ts h1 h2 ih =>
      have hv := operators_noWord _ h1.1
      have hb : (t == Token.Backslash) = false := by
        have : ∀ p ∈ operators, (p.2 == Token.Backslash) = false := by decide
        exact this _ h1.1
      simp only [escapes, hb]
      exact List.isChain_cons.2 ⟨fun b _ h => absurd h (not_absorbs_op hv), ih⟩
    | @blank c run s ts h1 h2 h3 h4 h5 ih =>
      refine List.isChain_cons.2 ⟨fun b hb h => ?_, ih⟩
      rw [show (Token.Whitespace (c :: run) == .Backslash) = false from rfl, escapes_head] at hb
      cases ts with
      | nil => cases hb
      | cons u ts =>
        cases hb
        cases u <;> simp only [Absorbs] at h
        obtain ⟨d, e, hd⟩ := lexes_head h5
        exact absurd hd (h4.2 d e)
    | @name c run s ts h1 h2 h3 h4 ih =>
      refine List.isChain_cons.2 ⟨fun b hb h => ?_, ih⟩
      rw [show (Token.Name (c :: run) == .Backslash) = false from rfl, escapes_head] at hb
      cases ts with
      | nil => cases hb
      | cons u ts =>
        cases hb
        cases u <;> simp only [Absorbs] at h
        · rename_i w
          obtain ⟨d, e, e', hd⟩ := lexes_head h4
          cases w with
          | nil => cases e'
          | cons d' w =>
            cases e'
            exact absurd ⟨hd, h⟩ (h3.2 d e)
        · obtain ⟨d, e, hd, hd'⟩ := lexes_head h4
          exact absurd ⟨hd, by simp [CharClass.nameChar, hd']⟩ (h3.2 d e)
    | @literal c run s ts h1 h2 h3 h4 ih =>
      refine List.isChain_cons.2 ⟨fun b hb h => ?_, ih⟩
      rw [show (Token.Literal (c :: run) == .Backslash) = false from rfl, escapes_head] at hb
      cases ts with
      | nil => cases hb
      | cons u ts =>
        cases hb
        cases u <;> simp only [Absorbs] at h
        · obtain ⟨d, e, _, hd⟩ := lexes_head h4
          exact absurd hd (h3.2 d e)
        · obtain ⟨d, e, hd, _⟩ := lexes_head h4
          exact absurd hd (h3.2 d e)
  exact this (lex_lexes cc src)

/-- The exception is real: after an escaped character a mergeable token can follow. -/
example : escapes false (lex ascii "\\ab c".toList) =
    [(.Backslash, false), (.Name ['a'], true), (.Name ['b'], false), (.Whitespace [' '], false),
      (.Name ['c'], false)] ∧ Absorbs ascii (.Name ['a']) (.Name ['b']) := by
  refine ⟨by decide, trivial⟩

/-! ## C06: polling -/

/-- The lexer after `n` calls of `next`. -/
def Spec.after (cc : CharClass) (l : Lexer) : Nat → Lexer
  | 0 => l
  | n + 1 => ((after cc l n).next cc).2

theorem rem_unique {cc : CharClass} {l : Lexer} {ts ts' : List Token} (h : Rem cc l ts)
    (h' : Rem cc l ts') : ts = ts' := by
  cases h <;> cases h' <;>
    first
    | exact lexes_unique ‹_› ‹_›
    | (congr 1; exact lexes_unique ‹_› ‹_›)
    | (congr 2; exact lexes_unique ‹_› ‹_›)
    | rfl

/-- Iterating from a reachable state follows the list of tokens that remain. -/
theorem after_spec (cc : CharClass) (l : Lexer) (hl : Reach cc l) (ts : List Token)
    (hr : Rem cc l ts) (n : Nat) : Reach cc (after cc l n) ∧ Rem cc (after cc l n) (ts.drop n) ∧
      ((after cc l n).next cc).1 = ts[n]? := by
  have one : ∀ (l : Lexer) (ts : List Token), Reach cc l → Rem cc l ts →
      (l.next cc).1 = ts[0]? ∧ Reach cc (l.next cc).2 ∧ Rem cc (l.next cc).2 (ts.drop 1) := by
    intro l ts hl hr
    have key := next_spec cc l hl
    generalize l.next cc = r at key
    rcases r with ⟨_ | t, l'⟩
    · obtain ⟨rfl, rfl⟩ := key
      rw [rem_iff] at hr
      cases lexes_nil hr
      exact ⟨rfl, .none, .none .nil⟩
    · obtain ⟨h1, h2, h3⟩ := key
      have hr' := collectN_spec cc (l'.size + 1) l' h1 (by omega)
      have := rem_unique hr (h3 _ hr')
      subst this
      exact ⟨rfl, h1, hr'⟩
  induction n with
  | zero =>
    obtain ⟨h1, h2, h3⟩ := one l ts hl hr
    exact ⟨hl, by simpa [after] using hr, by simpa [after] using h1⟩
  | succ n ih =>
    obtain ⟨h1, h2, h3⟩ := ih
    obtain ⟨g1, g2, g3⟩ := one _ _ h1 h2
    obtain ⟨k1, k2, k3⟩ := one _ _ g2 g3
    refine ⟨g2, by simpa [after, Nat.add_comm] using g3, ?_⟩
    show ((((after cc l n).next cc).2).next cc).1 = _
    rw [k1]; simp [Nat.add_comm]

/-- C06: the `n`-th call of `next` (from 0) returns the `n`-th token of the one fixed sequence,
and `None` for ever after its end. -/
theorem C06_next_yields_sequence (cc : CharClass) (src : Str) (n : Nat) :
    ((after cc (Lexer.new src) n).next cc).1 = (lex cc src)[n]? :=
  (after_spec cc (Lexer.new src) .none _ (.none (lex_lexes cc src)) n).2.2

/-- The budget of `lex` is enough: after its tokens `next` returns `None`. -/
theorem lex_complete (cc : CharClass) (src : Str) :
    ((after cc (Lexer.new src) (lex cc src).length).next cc).1 = none := by
  rw [C06_next_yields_sequence]; simp

/-- `lexSingle` is `Lexer::new(std::iter::once(c)).next()`. -/
theorem Lexer.next_once (cc : CharClass) (c : Char) :
    ((Lexer.new [c]).next cc).1 = some (lexSingle cc c) := by
  have := C06_next_yields_sequence cc [c] 0
  rw [lex_single] at this
  simpa [after] using this

/-- C06: once `next` returned `None`, it returns `None` forever. -/
theorem C06_lexer_fused (cc : CharClass) (src : Str) (n m : Nat)
    (h : ((after cc (Lexer.new src) n).next cc).1 = none) (hm : n ≤ m) :
    ((after cc (Lexer.new src) m).next cc).1 = none := by
  rw [C06_next_yields_sequence] at h ⊢
  simp at h ⊢; omega

example : ((after ascii (Lexer.new "a;".toList) 2).next ascii).1 = none := by decide

/-! ## C05: size_hint -/

theorem rem_size {cc : CharClass} {l : Lexer} {ts : List Token} (h : Rem cc l ts) :
    ts.length ≤ l.size ∧ (l.peeked.isSome → 1 ≤ ts.length) := by
  have len : ∀ {s : Str} {ts}, Lexes cc s ts → ts.length ≤ s.length := by
    intro s ts h
    rw [← lexes_unique (lex_lexes cc s) h]; exact C02_token_count cc s
  cases h with
  | none h => exact ⟨by simpa [Lexer.size] using len h, by simp⟩
  | tok h => exact ⟨by simpa [Lexer.size] using len h, by simp⟩
  | escNone => exact ⟨by simp [Lexer.size], by simp⟩
  | esc h => exact ⟨by simpa [Lexer.size] using len h, by simp⟩
  | lit h1 h2 =>
    refine ⟨by simpa [Lexer.size] using len h2, fun _ => ?_⟩
    cases ts with
    | cons => simp
    | nil =>
      rcases lexes_cons_inv h2 with ⟨_, _, h⟩ | ⟨_, _, _, _, _, _, h, _⟩ |
        ⟨_, _, _, _, _, _, h, h', _⟩ | ⟨_, _, _, _, h1, h2, _, h, _⟩ | ⟨_, _, _, h1, h2, _, h, _⟩ |
        ⟨_, _, _, h1, _, _, h, _⟩ <;> cases h

/-- The iterator of characters behind the lexer keeps `Iterator`'s contract: its upper bound is
not exceeded by the characters left. -/
def Spec.HintOk (l : Lexer) (h : SizeHint) : Prop := ∀ n, h.high = some n → l.inner.length ≤ n

/-- C05, the part that holds: at every moment of the iteration the lower bound of `size_hint` is
at most the number of tokens still to come; the upper bound is valid whenever the lexer holds no
peeked token, and otherwise is exceeded by at most 2.
Missing (false of the code, `C05_upper_bound_violated`): the upper bound in the remaining case. -/
theorem C05_size_hint_partial (cc : CharClass) (src : Str) (n : Nat) (h : SizeHint)
    (hh : HintOk (after cc (Lexer.new src) n) h) :
    let l := after cc (Lexer.new src) n
    let remaining := ((lex cc src).drop n).length
    (l.sizeHint h).low ≤ remaining ∧
    ∀ u, (l.sizeHint h).high = some u →
      (l.peeked = none → remaining ≤ u) ∧ remaining ≤ u + 2 := by
  intro l remaining
  obtain ⟨_, h2, _⟩ := after_spec cc (Lexer.new src) .none _ (.none (lex_lexes cc src)) n
  obtain ⟨h3, h4⟩ := rem_size h2
  refine ⟨?_, fun u hu => ?_⟩
  · show (if l.peeked.isSome then 1 else 0) ≤ _
    split
    · exact h4 ‹_›
    · omega
  · have hu' : l.inner.length ≤ u := hh u hu
    have hs : l.size ≤ l.inner.length + 2 := by
      unfold Lexer.size; split <;> omega
    refine ⟨fun hp => ?_, ?_⟩
    · have : l.size = l.inner.length := by simp [Lexer.size, hp]
      change remaining ≤ l.size at h3
      omega
    · change remaining ≤ l.size at h3
      omega

/-- C05 fails for the real code: after reading `a` from `a;`, the lexer holds the peeked `;`, the
characters are exhausted, so `size_hint` is `(1, Some(0))` while one more token is coming. -/
theorem C05_upper_bound_violated :
    let l := after ascii (Lexer.new "a;".toList) 1
    HintOk l ⟨0, some 0⟩ ∧ l.sizeHint ⟨0, some 0⟩ = ⟨1, some 0⟩ ∧
      ((lex ascii "a;".toList).drop 1).length = 1 := by
  refine ⟨fun n h => ?_, by decide, by decide⟩
  rw [show (after ascii (Lexer.new "a;".toList) 1).inner = [] by decide]
  simp

/-! ## C07: token text, length, positionals -/

theorem byteLen_eq (s : Str) : s.byteLen = (String.ofList s).utf8ByteSize := by
  induction s with
  | nil => rfl
  | cons c s ih =>
    have : String.ofList (c :: s) = String.ofList [c] ++ String.ofList s := by
      rw [← String.ofList_append]; rfl
    rw [this, String.utf8ByteSize_append, ← ih]
    simp [Str.byteLen]

/-- C07: `len` is the UTF-8 length of the text and `is_empty` tells whether the text is empty. -/
theorem C07_token_len (t : Token) : t.len = (String.ofList t.asStr).utf8ByteSize ∧
    (t.isEmpty = true ↔ t.asStr = []) := by
  refine ⟨byteLen_eq _, ?_⟩
  simp only [Token.isEmpty, Token.len, beq_iff_eq]
  cases t.asStr with
  | nil => simp [Str.byteLen]
  | cons c s => simp [Str.byteLen]; intro h; have := Char.utf8Size_pos c; omega

/-- C07: `from_num` and `as_num` are inverse on 0–9; other numbers are rejected. -/
theorem C07_positional (n : Nat) (p : Positional) :
    (Positional.fromNum n = some p ↔ p.asNum = n) ∧
    (Positional.fromNum n = none ↔ 9 < n) := by
  constructor
  · constructor
    · intro h; unfold Positional.fromNum at h; split at h <;> cases h <;> rfl
    · rintro rfl; cases p <;> rfl
  · constructor
    · intro h; unfold Positional.fromNum at h
      split at h <;> first | cases h; done | skip
      by_contra h'
      have : n = 0 ∨ n = 1 ∨ n = 2 ∨ n = 3 ∨ n = 4 ∨ n = 5 ∨ n = 6 ∨ n = 7 ∨ n = 8 ∨ n = 9 := by
        omega
      rcases this with h | h | h | h | h | h | h | h | h | h <;> contradiction
    · intro h; unfold Positional.fromNum
      split <;> first | omega | rfl

/-- C07: `$` followed by the digit `d` is lexed as the positional parameter number `d`; the text of
that token is `$d`. -/
theorem C07_lexer_positional (cc : CharClass) (n : Nat) (hn : n ≤ 9) (s : Str) :
    ∃ p : Positional, p.asNum = n ∧
      lex cc ('$' :: Nat.digitChar n :: s) = .ParamPositional p :: lex cc s ∧
      (Token.ParamPositional p).asStr = ['$', Nat.digitChar n] := by
  have key : ∀ m, m ≤ 9 → ∃ p : Positional, p.asNum = m ∧
      (['$', Nat.digitChar m], Token.ParamPositional p) ∈ operators := by
    intro m hm
    have : ∀ m ∈ List.range 10, ∃ p ∈ [Positional.Zero, .One, .Two, .Three, .Four, .Five, .Six,
      .Seven, .Eight, .Nine], p.asNum = m ∧
      (['$', Nat.digitChar m], Token.ParamPositional p) ∈ operators := by decide
    obtain ⟨p, _, h⟩ := this m (List.mem_range.2 (by omega))
    exact ⟨p, h⟩
  obtain ⟨p, h1, h2⟩ := key n hn
  refine ⟨p, h1, ?_, operators_asStr _ h2⟩
  refine C03_longest_operator cc ['$', Nat.digitChar n] s _ ⟨h2, ⟨s, rfl⟩, fun q hq hpre => ?_⟩
  have : ∀ q ∈ operators, q.1.length ≤ 2 ∨ q.1.head? = some '<' := by decide
  rcases this q hq with h | h
  · simpa using h
  · rcases hq1 : q.1 with _ | ⟨a, r⟩
    · rw [hq1] at h; cases h
    · rw [hq1] at h hpre
      cases h
      have := (List.cons_prefix_cons.1 hpre).1
      cases this

end Conch
