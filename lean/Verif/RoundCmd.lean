import Verif.RoundSimple
/-!
# Reading commands (C39)
-/
namespace Conch
open Spec Gram

section
variable {cc : CharClass}

/-! ## A leading blank changes nothing -/

section
variable {B : Builder} {b b' : B.State} {w : Str} {l r : List Token}

theorem line_blank {n} (h : Gram.Line l n r) : Gram.Line (.Whitespace w :: l) n r := by
  cases h with
  | newline h => exact .newline (bs := .Whitespace w :: _) (.ws h)
  | comment h h' => exact .comment (bs := .Whitespace w :: _) (.ws h) h'
  | lastComment h h' => exact .lastComment (bs := .Whitespace w :: _) (.ws h) h'

theorem lines_blank {ns} (h : Gram.Lines l ns r) : Gram.Lines (.Whitespace w :: l) ns r := by
  cases h with
  | nil h h' => exact .nil (skip_blank h) h'
  | cons h h' => exact .cons (line_blank h) h'

theorem optLine_blank {n} (h : Gram.OptLine l n r) : Gram.OptLine (.Whitespace w :: l) n r := by
  cases h with
  | some h => exact .some (line_blank h)
  | none h h' => exact .none (skip_blank h) h'

theorem group_blank {cfg k} (h : Reads (.group cfg) b l k r b') :
    Reads (.group cfg) b (.Whitespace w :: l) k r b' := by
  cases h with
  | groupEnd h1 h2 => exact .groupEnd (lines_blank h1) h2
  | groupCons h1 h2 h3 h4 h5 => exact .groupCons (lines_blank h1) h2 h3 h4 h5

theorem word_blank {k} (h : Reads .word b l k r b') : Reads .word b (.Whitespace w :: l) k r b' := by
  cases h with
  | word h1 h2 =>
    refine .word ?_ h2
    cases h1 with
    | wordPSome h3 h4 => exact .wordPSome (rawWord_blank h3) h4
    | wordPNone h3 => exact .wordPNone (rawWord_blank h3)

theorem words_blank {k} (h : Reads .words b l k r b') : Reads .words b (.Whitespace w :: l) k r b' := by
  cases h with
  | wordsNil h => exact .wordsNil (word_blank h)
  | wordsCons h h' => exact .wordsCons (word_blank h) h'

theorem patterns_blank {k} (h : Reads .patterns b l k r b') : Reads .patterns b (.Whitespace w :: l) k r b' := by
  cases h with
  | patternLast h => exact .patternLast (word_blank h)
  | patternCons h h' => exact .patternCons (word_blank h) h'

theorem command_blank {a} (h : Reads .command b l a r b') : Reads .command b (.Whitespace w :: l) a r b' := by
  cases h with
  | commandCompound h1 h2 h3 h4 => exact .commandCompound (skip_blank h1) h2 h3 h4
  | commandFunction h1 h2 h3 h4 => exact .commandFunction (skip_blank h1) h2 h3 h4
  | commandSimple h1 h2 h3 h4 => exact .commandSimple (skip_blank h1) h2 h3 h4

theorem pipe_blank {a} (h : Reads .pipelineCmds b l a r b') :
    Reads .pipelineCmds b (.Whitespace w :: l) a r b' := by
  cases h with
  | pipeLast h1 h2 h3 => exact .pipeLast (by simp) (command_blank h2) h3
  | pipeCons h1 h2 h3 h4 => exact .pipeCons (by simp) (command_blank h2) h3 h4

theorem kw_blank {x} (h : Gram.Kw x l r) : Gram.Kw x (.Whitespace w :: l) r := by
  obtain ⟨l', h1, h2⟩ := h
  exact ⟨l', skip_blank h1, h2⟩

end

/-! ## The start of a command -/

/-- The words that do not start a command. -/
def inner : List Str := [THEN, DO, DONE, FI, ELIF, ELSE, ESAC]

/-- What a command starts with. -/
structure CmdStart (l : List Token) : Prop where
  nb : Gram.NoBlank l
  ne : ∃ t l', l = t :: l' ∧ t ∉ [Token.Newline, .Pound, .ParenClose, .CurlyClose, .DSemi]
  kw : ∀ x ∈ inner, ∀ r, ¬ Gram.Keyword x l r

theorem CmdStart.noLine {l} (h : CmdStart l) : Gram.NoLineStart l := by
  obtain ⟨t, l', rfl, ht⟩ := h.ne
  intro r
  refine ⟨fun e => ?_, fun e => ?_⟩ <;> (cases e; simp at ht)

theorem CmdStart.lines {l} (h : CmdStart l) : Gram.Lines l [] l := .nil (.refl h.nb) h.noLine

theorem CmdStart.not_nil {l} (h : CmdStart l) : l ≠ [] := by
  obtain ⟨t, l', rfl, ht⟩ := h.ne
  simp

/-- The delimiters of groups. -/
structure Groups (cfg : Delims) : Prop where
  exact : ∀ t ∈ cfg.exactTokens, t ∈ [Token.Newline, .Pound, .ParenClose, .CurlyClose, .DSemi]
  words : ∀ x ∈ cfg.reservedWords, x ∈ inner
  toks : ∀ t ∈ cfg.reservedTokens, t ∈ [Token.Newline, .Pound, .ParenClose, .CurlyClose, .DSemi]

theorem CmdStart.atDelim {l} (h : CmdStart l) {cfg} (hc : Groups cfg) : ¬ Gram.AtDelim cfg l := by
  obtain ⟨t, l', e, ht⟩ := h.ne
  rintro (⟨t', h1, r, rfl⟩ | ⟨x, h1, r, h2⟩ | ⟨t', h1, r, rfl, -⟩)
  · cases e; exact ht (hc.exact _ h1)
  · exact h.kw x (hc.words x h1) r h2
  · cases e; exact ht (hc.toks _ h1)

/-- A word that is literal text as a whole: when a token ends it. -/
theorem lit_only (hs : cc.Sane) {s : Str} {r : Syn .parts} (ho : (Syn.lit s r).Ok cc false) (rest : Str) {t : Token} {l : List Token}
    (h : lex cc ((Syn.lit s r).text ++ ' ' :: rest) = t :: l) :
    ∃ u, lex cc s = t :: u ∧ ((u = [] ∧ r.isNil = true ∧ l = lex cc (' ' :: rest)) ∨
      ∃ t' l', l = t' :: l' ∧ t'.isWordDelimiter = false ∧ (t' = .Equals → '=' ∈ s)) := by
  rw [Ok_lit] at ho
  have e : (Syn.lit s r).text ++ ' ' :: rest = s ++ (r.text ++ ' ' :: rest) := by rw [text_lit]; simp
  have hed := edge_text' r (' ' :: rest) ho.2.1 (edge_space rest)
  rw [e, lex_lit hs ho.1 hed] at h
  have hne : lex cc s ≠ [] := by
    intro e
    have := C01_concat_tokens cc s
    rw [e] at this
    exact ho.1.1 this.symm
  have ht := lit_tokens hs ho.1.2
  have hcat := C01_concat_tokens cc s
  obtain ⟨t0, u, hu⟩ := List.exists_cons_of_ne_nil hne
  rw [hu] at h ht hcat
  rw [hu]
  injection h with h1 h2
  subst h1
  refine ⟨u, rfl, ?_⟩
  cases u with
  | nil =>
    replace h2 : lex cc (r.text ++ ' ' :: rest) = l := h2
    by_cases hn : r.isNil = true
    · refine .inl ⟨rfl, hn, ?_⟩
      have : r = .nil := by cases r <;> first | rfl | cases hn
      subst this
      exact h2.symm
    · have hn : r.isNil = false := by simpa using hn
      obtain ⟨t', l', h3, h4⟩ := parts_first hs r ho.2.2 _ (edge_space rest) hn
      rcases h4 with ⟨s', r', rfl, -⟩ | ⟨-, h4⟩
      · exact absurd rfl ho.2.1
      · refine .inr ⟨t', l', by rw [← h2, h3], ?_⟩
        have key : ∀ t ∈ [Token.Backslash, .Star, .Question, .Tilde, .SquareOpen, .SquareClose, .Colon, .SingleQuote,
          .DoubleQuote, .Dollar], t.isWordDelimiter = false ∧ t ≠ .Equals := by decide
        exact ⟨(key _ h4).1, fun e => absurd e (key _ h4).2⟩
  | cons t' u =>
    refine .inr ⟨t', u ++ lex cc (r.text ++ ' ' :: rest), by rw [← h2]; rfl, (ht t' (by simp)).ne.2.1, ?_⟩
    rintro rfl
    rw [← hcat, concatTokens_cons, concatTokens_cons]
    simp [Token.asStr]

/-- What a simple command starts with. -/
structure SimpleStart (l : List Token) : Prop where
  kw : ∀ x ∈ reservedWords, ∀ r, ¬ Gram.Keyword x l r
  ne : ∃ t l', l = t :: l' ∧ t ∉ [Token.Newline, .Pound, .ParenClose, .CurlyClose, .DSemi, .ParenOpen, .CurlyOpen, .Bang]
  paren : ∀ x r, l ≠ .Name x :: .ParenOpen :: r
  wsParen : ∀ x w r, l ≠ .Name x :: .Whitespace w :: .ParenOpen :: r
  nb : Gram.NoBlank l

theorem SimpleStart.starts {l} (h : SimpleStart l) : CmdStart l := by
  obtain ⟨t, l', e, ht⟩ := h.ne
  refine ⟨h.nb, ⟨t, l', e, fun h => ht ?_⟩, fun x hx => h.kw x ?_⟩
  · clear e ht; revert t; decide
  · revert x; decide

theorem SimpleStart.compound {l} (h : SimpleStart l) (kw) : ¬ CompoundStart l kw := by
  obtain ⟨t, l', e, ht⟩ := h.ne
  intro hc
  cases hc with
  | subshell => cases e; simp at ht
  | brace => cases e; simp at ht
  | forKw h' => exact h.kw _ (by decide) _ h'
  | caseKw h' => exact h.kw _ (by decide) _ h'
  | ifKw h' => exact h.kw _ (by decide) _ h'
  | whileKw h' => exact h.kw _ (by decide) _ h'
  | untilKw h' => exact h.kw _ (by decide) _ h'

theorem SimpleStart.function {l} (h : SimpleStart l) : ¬ FunctionStart l := by
  intro hc
  cases hc with
  | keyword h' => exact h.kw _ (by decide) _ h'
  | paren => exact h.paren _ _ rfl
  | wsParen => exact h.wsParen _ _ _ rfl

theorem natDigits_not_reserved (n : Nat) : natDigits n ∉ reservedWords := by
  intro h
  have key : ∀ x ∈ reservedWords, ∃ c ∈ x, isDigit c = false := by decide
  obtain ⟨c, hc, hd⟩ := key _ h
  rw [natDigits_isDigit hc] at hd; cases hd

theorem RStart.simple {l} (h : RStart l) : SimpleStart l := by
  have hnb := h.nb
  obtain ⟨t, l', h | ⟨n, h⟩, ht⟩ := h
  · subst h
    refine ⟨?_, ⟨_, _, rfl, ?_⟩, ?_, ?_, hnb⟩
    · rintro x - r ⟨e | e, -⟩ <;> (cases e; simp [redirOps] at ht)
    · clear hnb; revert t; decide
    · rintro x r e; cases e; simp [redirOps] at ht
    · rintro x w r e; cases e; simp [redirOps] at ht
  · subst h
    refine ⟨?_, ⟨_, _, rfl, by simp⟩, ?_, ?_, hnb⟩
    · rintro x hx r ⟨e | e, -⟩
      · cases e
      · cases e; exact natDigits_not_reserved n hx
    · rintro x r e; cases e
    · rintro x w r e; cases e

/-- The start of the command word. -/
theorem word_start (hs : cc.Sane) {w : Syn .parts} (hw : w.IsWord) (ho : w.Ok cc false) (hc : w.IsCommandWord) {rest : Str}
    (hb : NB cc rest) (hp : ∀ l, lex cc rest ≠ .ParenOpen :: l) :
    SimpleStart (lex cc (w.text ++ ' ' :: rest)) ∧ ¬ AssignStart (lex cc (w.text ++ ' ' :: rest)) := by
  have hnb := word_nb hs hw.1 ho (' ' :: rest)
  obtain ⟨t, l, h1, h2⟩ := parts_first hs w ho _ (edge_space rest) hw.1
  have hpound := first_not hs w ho _ (edge_space rest) hw.1 (t := .Pound) rfl (by decide) hw.2 l
  rw [NB, h1] at hnb
  rcases h2 with ⟨s, r, rfl, ht, -⟩ | ⟨hnl, ht⟩
  · obtain ⟨u, hu, h3⟩ := lit_only hs ho rest h1
    have hcat := C01_concat_tokens cc s
    rw [hu, concatTokens_cons] at hcat
    obtain ⟨hc1, hc2, hc3⟩ := hc
    rw [h1] at hpound ⊢
    refine ⟨⟨?_, ⟨t, l, rfl, ?_⟩, ?_, ?_, hnb⟩, ?_⟩
    · rintro x hx r' ⟨he, hend⟩
      rcases h3 with ⟨rfl, hn, rfl⟩ | ⟨t', l', rfl, ht', -⟩
      · refine hc3 hn ?_
        rw [← hcat]
        rcases he with he | he <;> (cases he; simpa [Token.asStr, concatTokens] using hx)
      · have : r' = t' :: l' := by rcases he with he | he <;> (cases he; rfl)
        have := hend _ _ this
        rw [ht'] at this; cases this
    · have h4 := ht.ne
      have hb : t ≠ .Bang := by
        rintro rfl
        rw [← hcat] at hc2
        exact hc2 rfl
      have hpo : t ≠ .Pound := by rintro rfl; exact hpound rfl
      simp only [List.mem_cons, List.not_mem_nil, or_false, not_or]
      refine ⟨?_, hpo, ?_, h4.1, ?_, ?_, h4.2.2.2.1, hb⟩ <;> (rintro rfl; exact absurd h4.2.1 (by decide))
    · rintro x r' e
      injection e with e1 e2
      rcases h3 with ⟨rfl, hn, rfl⟩ | ⟨t', l', rfl, ht', -⟩
      · rw [lex_sp hs hb] at e2; cases e2
      · cases e2; cases ht'
    · rintro x w' r' e
      injection e with e1 e2
      rcases h3 with ⟨rfl, hn, rfl⟩ | ⟨t', l', rfl, ht', -⟩
      · rw [lex_sp hs hb] at e2
        injection e2 with _ e2
        exact hp _ e2
      · cases e2; cases ht'
    · rintro ⟨x, r', e⟩
      injection e with e1 e2
      rcases h3 with ⟨rfl, hn, rfl⟩ | ⟨t', l', rfl, -, ht'⟩
      · rw [lex_sp hs hb] at e2; cases e2
      · cases e2; exact hc1 (ht' rfl)
  · have key : ∀ t ∈ [Token.Backslash, .Star, .Question, .Tilde, .SquareOpen, .SquareClose, .Colon, .SingleQuote,
          .DoubleQuote, .Dollar], t ∉ [Token.Newline, .Pound, .ParenClose, .CurlyClose, .DSemi, .ParenOpen, .CurlyOpen, .Bang] := by decide
    have hname : ∀ x, t ≠ .Name x ∧ t ≠ .Literal x := by
      intro x; constructor <;> (rintro rfl; simp at ht)
    rw [h1]
    refine ⟨⟨?_, ⟨t, l, rfl, key t ht⟩, ?_, ?_, hnb⟩, ?_⟩
    · rintro x - r ⟨e | e, -⟩ <;> (injection e with e _)
      · exact (hname _).1 e
      · exact (hname _).2 e
    · rintro x r e; injection e with e _; exact (hname _).1 e
    · rintro x w r e; injection e with e _; exact (hname _).1 e
    · rintro ⟨x, r, e⟩; injection e with e _; exact (hname _).1 e

variable (cc) in
/-- Claim about commands. -/
def CmdClaim (c : Syn .cmd) : Prop :=
  ∀ rest, StopText rest → RD .command (lex cc (c.text ++ rest)) c.ast (lex cc rest) ∧ CmdStart (lex cc (c.text ++ rest)) ∧
    ∀ l, lex cc (c.text ++ rest) ≠ .Bang :: l

theorem ast_simple_eq (pre : Syn .pres) (args : Syn .args) :
    (Syn.simple pre args).ast = .Simple ⟨pre.ast, args.ast⟩ := rfl

/-- The start of assignments and redirections. -/
theorem pres_start {p : Syn .pres} {rest : Str} (hs : cc.Sane) (h : SimpleStart (lex cc rest) ∨ p ≠ .pnil)
    (hp : p.Ok cc false) (hr : ∀ a q, p = .predir a q → NB cc (q.text ++ rest) ∧ RedirClaim cc a) : SimpleStart (lex cc (p.text ++ rest)) := by
  cases p with
  | pnil =>
    rcases h with h | h
    · exact h
    · exact absurd rfl h
  | passign x w q =>
    rw [Ok_passign] at hp
    have e : (Syn.passign x w q).text ++ rest = x ++ '=' :: (w.text ++ ' ' :: (q.text ++ rest)) := by
      rw [text_passign]; simp
    rw [e, lex_assign hs hp.1]
    refine ⟨?_, ⟨_, _, rfl, by simp⟩, ?_, ?_, by simp [Gram.NoBlank]⟩
    · rintro y - r ⟨e | e, he⟩
      · cases e; have := he _ _ rfl; cases this
      · cases e
    · rintro y r e; cases e
    · rintro y w r e; cases e
  | predir a q =>
    obtain ⟨h1, h2⟩ := hr a q rfl
    have e : (Syn.predir a q).text ++ rest = a.text ++ (q.text ++ rest) := by rw [text_predir]; simp
    rw [e]
    exact (h2 _ h1).2.simple

theorem cmd_simple (hs : cc.Sane) {pre : Syn .pres} {args : Syn .args} (hne : Syn.NonEmpty pre args) (hst : args.StartsWord)
    (hpo : pre.Ok cc false) (hao : args.Ok cc false)
    (hpre : PresClaim cc pre) (hredir : ∀ a q, pre = .predir a q → PresClaim cc q ∧ RedirClaim cc a)
    (hargs : ArgsClaim cc args) (hword : ∀ w as, args = .aword w as → PartsClaim cc w ∧ ArgsClaim cc as) :
    CmdClaim cc (.simple pre args) := by
  intro rest hr
  have e : (Syn.simple pre args).text ++ rest = pre.text ++ (args.text ++ rest) := by rw [text_simple]; simp
  rw [e]
  have hnb := (hargs rest hr).2.1
  -- the command word
  have key : ∃ ew as l, RD .assigns (lex cc (args.text ++ rest)) ([], ew) l ∧ RD .args l as (lex cc rest) ∧
      ew.toList.map .CmdWord ++ as = args.ast ∧ (pre = .pnil → ew.isSome ∧ SimpleStart (lex cc (args.text ++ rest))) := by
    cases args with
    | anil =>
      obtain ⟨h1, h2, h3⟩ := ender_reads hs hr.ender
      refine ⟨none, [], lex cc rest, .assignsEnd (.refl h1) h2 h3, .argsEnd h3, rfl, ?_⟩
      rintro rfl; exact absurd hne (by simp [Syn.NonEmpty])
    | aredir a r => cases hst
    | aword w as =>
      obtain ⟨hw, has⟩ := hword w as rfl
      rw [Ok_aword] at hao
      obtain ⟨h1, h2, h3⟩ := has rest hr
      have e : (Syn.aword w as).text ++ rest = w.text ++ ' ' :: (as.text ++ rest) := by rw [text_aword]; simp
      obtain ⟨h4, h5⟩ := word_start hs hao.1 hao.2.1 hst h2 h3
      rw [e]
      exact ⟨some (wordAst w.ast), as.ast, wsp :: lex cc (as.text ++ rest),
        .assignsWord (.refl (word_nb hs hao.1.1 hao.2.1 _)) h5 (word_redirect hs hao.1 hao.2.1 hw h2), args_blank h1, rfl,
        fun _ => ⟨rfl, h4⟩⟩
  obtain ⟨ew, as, l, k1, k2, k3, k4⟩ := key
  obtain ⟨h1, h2⟩ := hpre _ hnb
  have hss : SimpleStart (lex cc (pre.text ++ (args.text ++ rest))) := by
    refine pres_start hs ?_ hpo fun a q e => ⟨((hredir a q e).1 _ hnb).1, (hredir a q e).2⟩
    by_cases hp : pre = .pnil
    · exact .inl (k4 hp).2
    · exact .inr hp
  refine ⟨.commandSimple (.refl h1) hss.compound hss.function (.simple (h2 _ _ k1) k2 ?_ ?_), hss.starts, ?_⟩
  · cases pre with
    | pnil => exact .inr (.inl (k4 rfl).1)
    | passign => exact .inl (by rw [ast_passign]; simp)
    | predir => exact .inl (by rw [ast_predir]; simp)
  · rw [k3]; exact calls_simple _ _
  · obtain ⟨t, l', e, ht⟩ := hss.ne
    rintro l e'
    rw [e] at e'; cases e'; simp at ht

end
end Conch
