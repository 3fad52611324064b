import Verif.LexPrint
import Verif.PropsGram
import Verif.PropsDefault
/-!
# C24: single quotes and shell quoting
-/
namespace Conch
open Spec Gram

/-- A single quote ends the quotes, is escaped on its own and starts them again. -/
def Spec.quoteChar (c : Char) : Str := if c = '\'' then ['\'', '\\', '\'', '\''] else [c]

/-- The usual quoting of a string: between single quotes, with every single quote replaced by
`'\''`. -/
def Spec.shellQuote (s : Str) : Str :=
  ['\''] ++ s.flatMap quoteChar ++ ['\'']

/-- `Quoted ws s`: the parts of a word spell `s`, with every single quote escaped on its own and
everything else between single quotes. -/
inductive Spec.Quoted {C : Type} : List (WordKind C) → Str → Prop
  | last {s} : '\'' ∉ s → Quoted [.SingleQuoted s] s
  | cons {s ws t} : '\'' ∉ s → Quoted ws t →
      Quoted (.SingleQuoted s :: .Simple (.Escaped ['\'']) :: ws) (s ++ '\'' :: t)

section
variable {cc : CharClass}

theorem split_before {c : Char} {x y s r : Str} (hx : c ∉ x) (h : x ++ y = s ++ c :: r) :
    ∃ s', s = x ++ s' ∧ y = s' ++ c :: r := by
  rcases List.append_eq_append_iff.1 h with ⟨a, rfl, rfl⟩ | ⟨a, rfl, h2⟩
  · exact ⟨a, rfl, rfl⟩
  · cases a with
    | nil => exact ⟨[], by simp, by simpa using h2.symm⟩
    | cons d a => cases h2; simp at hx

/-- Lexing a source up to a single quote. -/
theorem lex_to_quote (hs : cc.Sane) (rest : Str) : ∀ (n : Nat) (s : Str), s.length ≤ n → '\'' ∉ s →
    ∃ u, (∀ t ∈ u, t ≠ Token.SingleQuote) ∧ concatTokens u = s ∧
      lex cc (s ++ '\'' :: rest) = u ++ .SingleQuote :: lex cc rest := by
  have hop : ([('\'' : Char)], Token.SingleQuote) ∈ operators := by decide
  have hq : opStart '\'' := ⟨_, hop, rfl⟩
  have hqw : cc.whitespace '\'' = false := (hs.op _ (.inl hq)).2 (by decide)
  have hqlen : ∀ p ∈ operators, ('\'' : Char) ∈ p.1 → p.1 = ['\''] := by decide
  have hqtok : ∀ p ∈ operators, p.2 = Token.SingleQuote → p.1 = ['\''] := by decide
  intro n
  induction n with
  | zero =>
    intro s hlen hns
    obtain rfl : s = [] := by simpa using hlen
    refine ⟨[], by simp, rfl, ?_⟩
    exact C03_longest_operator cc ['\''] rest _ ⟨hop, ⟨_, rfl⟩, fun p hp hpre => by
      obtain ⟨r, hr⟩ := hpre
      rcases hpl : p.1 with _ | ⟨d, ds⟩
      · simp
      · rw [hpl] at hr
        cases hr
        rw [← hpl, hqlen p hp (by simp [hpl])]⟩
  | succ n ih =>
    intro s hlen hns
    rcases s with _ | ⟨c, r⟩
    · exact (ih [] (by simp) (by simp))
    have hc : c ≠ '\'' := fun h => hns (by simp [h])
    have hr : '\'' ∉ r := fun h => hns (by simp [h])
    simp only [List.length_cons, Nat.add_le_add_iff_right] at hlen
    have step : ∀ (x : Str) (t : Token), x ≠ [] → t.asStr = x → '\'' ∉ x → t ≠ .SingleQuote →
        ∀ y ts', x ++ y = (c :: r) ++ '\'' :: rest → Lexes cc y ts' →
        lex cc ((c :: r) ++ '\'' :: rest) = t :: ts' →
        ∃ u, (∀ t ∈ u, t ≠ Token.SingleQuote) ∧ concatTokens u = c :: r ∧
          lex cc (c :: r ++ '\'' :: rest) = u ++ .SingleQuote :: lex cc rest := by
      intro x t hx ht hxq htq y ts' e hy hl
      obtain ⟨s', h1, rfl⟩ := split_before hxq e
      have hlen' := congrArg List.length h1
      simp only [List.length_cons, List.length_append] at hlen'
      have := List.length_pos_iff.2 hx
      obtain ⟨u, hu1, hu2, hu3⟩ := ih s' (by omega) (fun h => hns (by rw [h1]; simp [h]))
      rw [(C03_tokens_iff_grammar _ _ _).2 hy] at hu3
      subst hu3
      exact ⟨t :: u, by simpa using ⟨htq, hu1⟩, by rw [concatTokens_cons, ht, hu2, h1], hl⟩
    rcases lexes_cons_inv (lex_lexes cc (c :: (r ++ '\'' :: rest))) with
      ⟨_, h, _⟩ | ⟨d, s', t, ts', rfl, h, hts, hS, hl⟩ | ⟨o, s', t, ts', ho, h, hts, hL, hl⟩ |
      ⟨run, s', ts', h1, h2, h3, h, hts, hm, hl⟩ | ⟨run, s', ts', h1, h2, h, hts, hm, hl⟩ |
      ⟨run, s', ts', h1, h2, h, hts, hm, hl⟩
    · simp at h
    · rcases r with _ | ⟨d', r⟩
      · cases h
        obtain rfl := single_unique hS (.op hop)
        refine ⟨[.Backslash], by simp, rfl, ?_⟩
        rw [(C03_tokens_iff_grammar _ _ _).2 hl]
        exact hts
      · obtain ⟨rfl, rfl⟩ : d = d' ∧ s' = r ++ '\'' :: rest := by
          rw [List.cons_append] at h
          exact ⟨(List.cons.inj h).1.symm, (List.cons.inj h).2.symm⟩
        have hd : d ≠ '\'' := fun h => hr (by simp [h])
        obtain ⟨u, hu1, hu2, hu3⟩ := ih r (by simp at hlen; omega) (fun h => hr (by simp [h]))
        rw [(C03_tokens_iff_grammar _ _ _).2 hl] at hu3
        subst hu3
        refine ⟨.Backslash :: t :: u, ?_, ?_, hts⟩
        · intro t' ht'
          simp only [List.mem_cons] at ht'
          rcases ht' with rfl | rfl | ht'
          · simp
          · rintro rfl
            have := single_asStr hS
            simp [Token.asStr] at this
            exact hd this.symm
          · exact hu1 t' ht'
        · rw [concatTokens_cons, concatTokens_cons, hu2, single_asStr hS]; rfl
    · obtain ⟨d, ds, r', rfl, _, e⟩ := longestOp_head hL
      cases e
      have hne : (c :: ds) ≠ ['\''] := by simp [hc]
      refine step (c :: ds) t (by simp) (operators_asStr _ hL.1) (fun hm => hne (hqlen _ hL.1 hm)) ?_ s' ts' h.symm hl hts
      exact fun ht => hne (hqtok _ hL.1 ht)
    · refine step (c :: run) _ (by simp) rfl ?_ (by simp) s' ts' (by simp [h]) hl hts
      intro hmem
      rcases List.mem_cons.1 hmem with h | h
      · exact hc h.symm
      · have := (hm.1 _ h).1; rw [hqw] at this; cases this
    · refine step (c :: run) _ (by simp) rfl ?_ (by simp) s' ts' (by simp [h]) hl hts
      intro hmem
      rcases List.mem_cons.1 hmem with h | h
      · exact hc h.symm
      · exact (hm.1 _ h).1.2.1 hq
    · refine step (c :: run) _ (by simp) rfl ?_ (by simp) s' ts' (by simp [h]) hl hts
      intro hmem
      rcases List.mem_cons.1 hmem with h | h
      · exact hc h.symm
      · exact (hm.1 _ h).2.1 hq

theorem lex_quote (hs : cc.Sane) (s : Str) : lex cc ('\'' :: s) = .SingleQuote :: lex cc s := by
  obtain ⟨u, _, h2, h3⟩ := lex_to_quote hs s 0 [] (by simp) (by simp)
  have : u = [] := by
    rcases u with _ | ⟨t, u⟩
    · rfl
    · have hl : t ∈ lex cc ([] ++ '\'' :: s) := by rw [h3]; simp
      have := C02_tokens_nonempty cc _ t hl
      rw [concatTokens_cons] at h2
      exact absurd (List.append_eq_nil_iff.1 h2).1 this
  subst this
  exact h3

theorem quoteChar_id : ∀ z : Str, '\'' ∉ z → z.flatMap quoteChar = z := by
  intro z hz
  induction z with
  | nil => rfl
  | cons c z ih =>
    rw [List.flatMap_cons, ih (fun h => hz (by simp [h])), quoteChar, if_neg (fun h => hz (by simp [h]))]
    rfl

theorem quoteChar_quote : quoteChar '\'' = ['\'', '\\', '\'', '\''] := rfl

/-- The tokens of a quoted string, and how the grammar reads them. -/
theorem quoted_reads (hs : cc.Sane) {B : Builder} (b : B.State) (rest : Str)
    (hr : Gram.EndsWord (lex cc rest)) (s : Str) :
    ∃ ws r, Quoted (C := B.Command) ws s ∧ lex cc (shellQuote s ++ rest) = .SingleQuote :: r ∧
      Reads (.pieces none) b (.SingleQuote :: r) ws (lex cc rest) b := by
  have key : ∀ (n : Nat) (s : Str), s.length ≤ n →
      ∃ ws r, Quoted (C := B.Command) ws s ∧ lex cc (s.flatMap quoteChar ++ '\'' :: rest) = r ∧
      Reads (.pieces none) b (.SingleQuote :: r) ws (lex cc rest) b := by
    intro n
    induction n with
    | zero =>
      intro s hl
      obtain rfl : s = [] := by simpa using hl
      refine ⟨_, _, .last (by simp), rfl, ?_⟩
      rw [List.flatMap_nil, List.nil_append, lex_quote hs]
      exact .consPiece (by simp) (Reads.singleQuoted (u := []) (by simp)) (.endWord hr)
    | succ n ih =>
      intro s hl
      by_cases hq : '\'' ∈ s
      · obtain ⟨x, y, rfl, hx⟩ := List.eq_append_cons_of_mem hq
        simp only [List.length_append, List.length_cons] at hl
        obtain ⟨ws, r, hw, hlex, hread⟩ := ih y (by omega)
        rw [List.flatMap_append, List.flatMap_cons, quoteChar_quote, quoteChar_id x hx]
        obtain ⟨u, hu1, hu2, hu3⟩ := lex_to_quote hs
          ('\\' :: '\'' :: '\'' :: (y.flatMap quoteChar ++ '\'' :: rest))
          x.length x (Nat.le_refl _) hx
        refine ⟨_, _, .cons hx hw, rfl, ?_⟩
        simp only [List.append_assoc, List.cons_append, List.nil_append]
        rw [hu3, C03_escape_protects_one, show lex cc ['\''] = [.SingleQuote] from lex_quote hs [], lex_quote hs, hlex]
        rw [← hu2]
        refine .consPiece (by simp) (.singleQuoted hu1) ?_
        exact .consPiece (by simp) (.escaped (by simp)) hread
      · rw [quoteChar_id s hq]
        obtain ⟨u, hu1, hu2, hu3⟩ := lex_to_quote hs rest s.length s (Nat.le_refl _) hq
        refine ⟨_, _, .last hq, rfl, ?_⟩
        rw [hu3, ← hu2]
        exact .consPiece (by simp) (.singleQuoted hu1) (.endWord hr)
  obtain ⟨ws, r, h1, h2, h3⟩ := key s.length s (Nat.le_refl _)
  refine ⟨ws, r, h1, ?_, h3⟩
  simp only [shellQuote, List.append_assoc, List.cons_append, List.nil_append]
  rw [lex_quote hs, h2]

theorem Spec.Quoted.ne_nil {C : Type} {ws : List (WordKind C)} {s} (h : Quoted ws s) : ws ≠ [] := by
  cases h <;> simp

theorem Spec.Quoted.single {C : Type} {ws : List (WordKind C)} {s} (h : Quoted ws s) (hs : '\'' ∉ s) :
    ws = [.SingleQuoted s] := by
  cases h with
  | last => rfl
  | cons => simp at hs

/-- The word that has these parts. -/
def Spec.wordWith {C : Type} : List (WordKind C) → ComplexWordKind C
  | [w] => .Single w
  | ws => .Concat ws

theorem wordOf_eq {C : Type} {ws : List (WordKind C)} (h : ws ≠ []) : wordOf ws = some (wordWith ws) := by
  rcases ws with _ | ⟨_, _ | _⟩ <;> first | rfl | contradiction

end

/-- **C24, any builder.** For every string `s` and every text after it that starts with a word
delimiter, the quoted `s` is read as one word; the builder is called once, for a word that spells
`s` in single quotes and escaped single quotes. -/
theorem C24_quoting_round_trip {B : Builder} (cc : CharClass) (hs : cc.Sane) (s rest : Str)
    (hr : Gram.EndsWord (lex cc rest)) (b : B.State) :
    ∃ ws, Quoted ws s ∧ ∀ w b', B.call (.word (wordWith ws)) b = (.ok w, b') →
      Parses .wordPreserveTrailingWhitespace (parserOn (lex cc (shellQuote s ++ rest)) b) (some w)
        (lex cc rest) b' := by
  obtain ⟨ws, r, hq, hl, hread⟩ := quoted_reads hs b rest hr s
  refine ⟨ws, hq, fun w b' hc => ?_⟩
  refine C31_parser_accepts_grammar .wordPreserveTrailingWhitespace trivial _ _ _ _ ?_
  show Reads .wordP b (parserOn (B := B) _ b).tokens (some w) _ b'
  rw [PSt.tokens, parserOn_rest, hl]
  have := Reads.someWord (.refl (by simp [Gram.NoBlank])) (by simp) hread
  rw [wordOf_eq hq.ne_nil] at this
  exact .wordPSome this hc

/-- **C24, one pair of quotes.** A string without single quotes between single quotes is one word:
exactly that string, single quoted. -/
theorem C24_single_quotes {B : Builder} (cc : CharClass) (hs : cc.Sane) (s rest : Str)
    (hq : '\'' ∉ s) (hr : Gram.EndsWord (lex cc rest)) (b b' : B.State) (w : B.Word)
    (hw : B.call (.word (.Single (.SingleQuoted s))) b = (.ok w, b')) :
    Parses .wordPreserveTrailingWhitespace (parserOn (lex cc (['\''] ++ s ++ ['\''] ++ rest)) b)
      (some w) (lex cc rest) b' := by
  obtain ⟨ws, h1, h2⟩ := C24_quoting_round_trip cc hs s rest hr b
  obtain rfl := h1.single hq
  have := h2 w b' hw
  rwa [shellQuote, quoteChar_id s hq] at this

/-! ## With the default builder -/

/-- The text of a part of a word all of which is quoted. -/
def Spec.quotedPart {P S : Type} : Word Str (SimpleWord Str P S) → Option Str
  | .SingleQuoted s => some s
  | .Simple (.Escaped s) => some s
  | _ => none

/-- The text of a word all of which is quoted. -/
def Spec.quotedText : TopLevelWord Str → Option Str
  | .mk (.Single w) => quotedPart w
  | .mk (.Concat ws) => (ws.mapM quotedPart).map List.flatten

theorem Spec.Quoted.chain {C : Type} {ws : List (WordKind C)} {s} (h : Quoted ws s) :
    List.IsChain (fun a b => ¬ Mergeable a b) ws := by
  induction h with
  | last => exact .singleton _
  | cons h _ ih =>
    rename_i ws t h2
    refine List.isChain_cons_cons.2 ⟨by simp [Mergeable], ?_⟩
    refine List.isChain_cons.2 ⟨fun y hy => ?_, ih⟩
    cases h2 <;> (cases hy; simp [Mergeable])

theorem Spec.Quoted.compress {C : Type} {ws : List (WordKind C)} {s} (h : Quoted ws s) :
    Conch.compress (wordWith ws) = wordWith ws := by
  cases h with
  | last => rfl
  | cons h1 h2 =>
    have := (Quoted.cons h1 h2).chain
    rename_i ws t
    obtain ⟨w, ws', rfl⟩ := List.exists_cons_of_ne_nil h2.ne_nil
    simp only [wordWith, Conch.compress]
    rw [Coalesce.collect_eq, merge_fixed (fun a b h => coalesceWord_not h) _ this]

theorem quoted_word {ws : List (WordKind (TopLevelCommand Str))} {s : Str} (h : Quoted ws s) :
    quotedText (stringCore.word (wordWith ws)) = some s := by
  unfold Core.word
  have hd : ∀ w ∈ ws, w.depth = 0 := by
    induction h with
    | last => simp [WordKind.depth]
    | cons _ _ ih => simpa [WordKind.depth, SimpleWordKind.depth] using ih
  have hmap : ∀ (n : Nat) (rec : (k : ComplexWordKind (TopLevelCommand Str)) → k.depth ≤ n → TopLevelWord Str)
      (hw : ∀ w ∈ ws, w.depth ≤ n),
      ((ws.pmap (stringCore.mapWord rec) hw).mapM quotedPart).map List.flatten = some s := by
    intro n rec hw
    clear hd
    induction h with
    | last => simp [Core.mapWord, quotedPart]
    | @cons x ws t _ _ ih =>
      have := ih (fun w h => hw w (by simp [h]))
      rw [List.pmap_cons, List.pmap_cons, List.mapM_cons, List.mapM_cons]
      cases hm : (ws.pmap (stringCore.mapWord rec) (fun w h => hw w (by simp [h]))).mapM quotedPart with
      | none => rw [hm] at this; cases this
      | some v =>
        rw [hm] at this
        cases this
        simp [hm, Core.mapWord, Core.mapSimple, quotedPart]
  have hdep : (wordWith ws).depth = 1 := by
    have := depthWords_le.2 (fun w hw => Nat.le_of_eq (hd w hw))
    rcases ws with _ | ⟨w, _ | ⟨w', ws⟩⟩
    · cases h
    · simp [wordWith, ComplexWordKind.depth, hd w]
    · simp only [wordWith, ComplexWordKind.depth]; omega
  have key : ∀ n (hn : (wordWith ws).depth ≤ n), quotedText (stringCore.wordD n (wordWith ws) hn) = some s := by
    intro n hn
    cases n with
    | zero => omega
    | succ n =>
      simp only [Core.wordD]
      have : ∀ k (hk : k.depth ≤ n + 1), k = wordWith ws →
          quotedText (stringCore.ofWord (stringCore.mapComplex (stringCore.wordD n) k hk)) = some s := by
        rintro _ hk rfl
        rcases ws with _ | ⟨w, _ | ⟨w', ws⟩⟩
        · cases h
        · cases h; rfl
        · exact hmap n (stringCore.wordD n) _
      exact this _ _ h.compress
  exact key _ _

/-- **C24, default builder.** For every string `s`, parsing its quoted form gives one word all of
which is quoted and whose text is `s`; what follows is left. -/
theorem C24_quoted_text (cc : CharClass) (hs : cc.Sane) (s rest : Str)
    (hr : Gram.EndsWord (lex cc rest)) :
    ∃ w, Parses (B := DefaultBuilder) .wordPreserveTrailingWhitespace
      (parserOn (lex cc (shellQuote s ++ rest)) ()) (some w) (lex cc rest) () ∧
      quotedText w = some s := by
  obtain ⟨ws, h1, h2⟩ := C24_quoting_round_trip (B := DefaultBuilder) cc hs s rest hr ()
  exact ⟨_, h2 _ _ rfl, quoted_word h1⟩

/-- The hypotheses are met by the end of the input, a blank, a newline, `;`... -/
example : Gram.EndsWord (lex ascii []) ∧ Gram.EndsWord (lex ascii " rm -rf /".toList) ∧
    Gram.EndsWord (lex ascii "; a".toList) := by
  refine ⟨?_, ?_, ?_⟩ <;> rintro t r h
  · cases h
  · rw [show lex ascii " rm -rf /".toList = .Whitespace [' '] :: lex ascii "rm -rf /".toList by decide] at h
    cases h; rfl
  · rw [show lex ascii "; a".toList = .Semi :: lex ascii " a".toList by decide] at h
    cases h; rfl

example : String.ofList (shellQuote "it's $x".toList) = "'it'\\''s $x'" := by decide

end Conch
