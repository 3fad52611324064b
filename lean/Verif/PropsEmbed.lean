import Verif.PropsCompose
/-!
# C53: words with scripts in them, and the commands that have words
-/
namespace Conch
open Spec Gram

/-! ## Specification -/

/-- The text `w` is one word, `W`: it does not start with a blank or a backslash, and when a blank or a newline
follows, the parser reads exactly `w` as the word `W`. -/
structure Spec.WholeWord (cc : CharClass) (w : Str) (W : SWord) : Prop where
  start : ∃ c r, w = c :: r ∧ c ≠ '\\' ∧ cc.whitespace c = false
  reads : ∀ q, q.head? = some ' ' ∨ q.head? = some '\n' →
    Parses (B := DefaultBuilder) .wordPreserveTrailingWhitespace (parserOn (lex cc (w ++ q)) ()) (some W) (lex cc q) ()

/-- Words with a blank after each. -/
def Spec.wordsText (ws : List Str) : Str := ws.flatMap fun w => w ++ [' ']

/-- A word that can be the first of a command: it starts with a quote or an expansion, or it is a name that is not
reserved. -/
def Spec.FirstWord (cc : CharClass) (w : Str) : Prop :=
  (∃ c r, w = c :: r ∧ c ∈ ['\'', '"', '$', '`']) ∨ (lex cc w = [.Name w] ∧ w ∉ reservedWords)

def Spec.substText (p : Str) : Str := "$(".toList ++ p ++ "\n)".toList

def Spec.forText (x : Str) (ws : Option (List Str)) (p : Str) : Str :=
  lines [(match ws with
    | none => "for ".toList ++ x
    | some ws => "for ".toList ++ x ++ " in ".toList ++ wordsText ws), "do".toList, p, "done".toList]

/-- A function: its name, parentheses and its body. -/
def Spec.functionText (x p : Str) : Str := x ++ "()".toList ++ p

/-- Patterns between parentheses, the commands and `;;`. -/
def Spec.patternText : List Str → Str
  | [] => []
  | [w] => w ++ " )".toList
  | w :: ws => w ++ " | ".toList ++ patternText ws

def Spec.armLines : List (List Str × Str) → List Str
  | [] => ["esac".toList]
  | (ps, q) :: as => ('(' :: patternText ps) :: q :: ";;".toList :: armLines as

def Spec.caseText (w : Str) (as : List (List Str × Str)) : Str :=
  lines (("case ".toList ++ w ++ " in".toList) :: armLines as)

variable {cc : CharClass}

/-! ## Words -/

theorem Spec.Quoted.unique {C : Type} {ws ws' : List (WordKind C)} {s : Str} (h : Quoted ws s) (h' : Quoted ws' s) : ws = ws' := by
  induction h generalizing ws' with
  | last h =>
    cases h' with
    | last => rfl
    | cons => simp at h
  | cons h1 h2 ih =>
    generalize e : _ ++ _ :: _ = s at h'
    cases h' with
    | last h => subst e; simp at h
    | cons h3 h4 =>
      obtain ⟨a, ha, hb⟩ := split_before h1 e
      have ha0 : a = [] := by
        cases a with
        | nil => rfl
        | cons d a =>
          rw [ha] at h3
          injection hb with hb _
          subst hb
          simp at h3
      subst ha0
      simp only [List.append_nil] at ha
      subst ha
      simp only [List.nil_append, List.cons.injEq, true_and] at hb
      subst hb
      rw [ih h4]


theorem Spec.WholeWord.nb {w : Str} {W : SWord} (h : WholeWord cc w W) (x : Str) : NB cc (w ++ x) := by
  obtain ⟨c, r, rfl, h1, h2⟩ := h.start
  exact noBlank_text (.inl h2) (fun e => absurd e h1)

theorem wordP_iff {l r : List Token} {W : Option SWord} :
    Parses (B := DefaultBuilder) .wordPreserveTrailingWhitespace (parserOn l ()) W r () ↔ RD .wordP l W r := by
  rw [C31_parser_exact .wordPreserveTrailingWhitespace trivial]
  show (Reads (B := DefaultBuilder) .wordP _ (parserOn (B := DefaultBuilder) l ()).tokens _ _ _) ↔ _
  rw [PSt.tokens, parserOn_rest]

section
variable (hs : cc.Sane)
include hs

theorem Spec.WholeWord.raw {w : Str} {W : SWord} (h : WholeWord cc w W) {rest : Str} (hb : NB cc rest) :
    RD .wordP (lex cc (w ++ ' ' :: rest)) (some W) (wsp :: lex cc rest) := by
  have := wordP_iff.1 (h.reads (' ' :: rest) (.inl rfl))
  rwa [lex_sp hs hb] at this

theorem Spec.WholeWord.word {w : Str} {W : SWord} (h : WholeWord cc w W) {rest : Str} (hb : NB cc rest) :
    RD .word (lex cc (w ++ ' ' :: rest)) (some W) (lex cc rest) :=
  .word (h.raw hs hb) (skip_blank (.refl hb))

theorem wordP_redirect {b b' : DefaultBuilder.State} {l r : List Token} {W : SWord}
    (h : Reads (B := DefaultBuilder) .wordP b l (some W) (wsp :: r) b') :
    Reads (B := DefaultBuilder) .redirect b l (some (.inr W)) (wsp :: r) b' := by
  have := hs
  cases h with
  | wordPSome h1 h2 =>
    refine .redirectWord h1 ?_ h2
    rintro - t r e
    cases e
    simp [redirOps]

theorem Spec.WholeWord.redirect {w : Str} {W : SWord} (h : WholeWord cc w W) {rest : Str} (hb : NB cc rest) :
    RD .redirect (lex cc (w ++ ' ' :: rest)) (some (.inr W)) (wsp :: lex cc rest) :=
  wordP_redirect hs (h.raw hs hb)

omit hs in
theorem redirectW_blank {b b' : DefaultBuilder.State} {l r : List Token} {x : Str} {k}
    (h : Reads (B := DefaultBuilder) .redirect b l (some (.inr k)) r b') :
    Reads (B := DefaultBuilder) .redirect b (.Whitespace x :: l) (some (.inr k)) r b' := by
  cases h with
  | redirectWord h1 h2 h3 => exact .redirectWord (rawWord_blank h1) h2 h3

/-- The words of a line, and what follows. -/
theorem wordsText_nb {ws : List (Str × SWord)} (h : ∀ w ∈ ws, WholeWord cc w.1 w.2) {rest : Str} (hb : NB cc rest) :
    NB cc (wordsText (ws.map (·.1)) ++ rest) := by
  have := hs
  cases ws with
  | nil => exact hb
  | cons w ws =>
    have := (h w (by simp)).nb (' ' :: (wordsText (ws.map (·.1)) ++ rest))
    simpa [wordsText] using this

theorem words_reads {ws : List (Str × SWord)} (h : ∀ w ∈ ws, WholeWord cc w.1 w.2) (rest : Str) :
    RD .words (lex cc (wordsText (ws.map (·.1)) ++ '\n' :: rest)) (ws.map (·.2)) (.Newline :: lex cc rest) := by
  have hnb : Gram.NoBlank (Token.Newline :: lex cc rest) := by simp [Gram.NoBlank]
  induction ws with
  | nil =>
    simp only [wordsText, List.map_nil, List.flatMap_nil, List.nil_append, lex_newline]
    refine .wordsNil (.word (.wordPNone ?_) (.refl hnb))
    exact Reads.someWord (ws := []) (.refl hnb) (by simp) (.endWord (ends_newline _))
  | cons w ws ih =>
    have hb := wordsText_nb hs (fun x hx => h x (List.mem_cons_of_mem _ hx)) (rest := '\n' :: rest) (by rw [NB, lex_newline]; exact hnb)
    have e : wordsText ((w :: ws).map (·.1)) ++ '\n' :: rest = w.1 ++ ' ' :: (wordsText (ws.map (·.1)) ++ '\n' :: rest) := by
      simp [wordsText]
    rw [e]
    exact .wordsCons ((h w (by simp)).word hs hb) (ih fun x hx => h x (List.mem_cons_of_mem _ hx))

theorem argsW_reads {ws : List (Str × SWord)} (h : ∀ w ∈ ws, WholeWord cc w.1 w.2) (rest : Str) :
    RD .args (wsp :: lex cc (wordsText (ws.map (·.1)) ++ '\n' :: rest)) (ws.map (.CmdWord ·.2)) (.Newline :: lex cc rest) := by
  have hnb : Gram.NoBlank (Token.Newline :: lex cc rest) := by simp [Gram.NoBlank]
  induction ws with
  | nil =>
    simp only [wordsText, List.map_nil, List.flatMap_nil, List.nil_append, lex_newline]
    refine .argsEnd (.noRedirect ?_ (by rintro t r e; cases e; decide))
    exact Reads.someWord (ws := []) (skip_blank (.refl hnb)) (by simp) (.endWord (ends_newline _))
  | cons w ws ih =>
    have hb := wordsText_nb hs (fun x hx => h x (List.mem_cons_of_mem _ hx)) (rest := '\n' :: rest) (by rw [NB, lex_newline]; exact hnb)
    have e : wordsText ((w :: ws).map (·.1)) ++ '\n' :: rest = w.1 ++ ' ' :: (wordsText (ws.map (·.1)) ++ '\n' :: rest) := by
      simp [wordsText]
    rw [e]
    exact .argsWord (redirectW_blank ((h w (by simp)).redirect hs hb)) (ih fun x hx => h x (List.mem_cons_of_mem _ hx))

omit hs in
theorem wordP_paren {b b' : DefaultBuilder.State} {l r : List Token} {W : SWord}
    (h : Reads (B := DefaultBuilder) .wordP b (.ParenOpen :: l) (some W) r b') : False := by
  generalize e : Token.ParenOpen :: l = l0 at h
  cases h with
  | wordPSome h1 h2 =>
    generalize ek : some _ = k at h1
    cases h1 with
    | noWord => cases ek
    | someWord h3 h4 h5 =>
      subst e
      have := h3.of_noBlank (by simp [Gram.NoBlank])
      subst this
      generalize e : Token.ParenOpen :: l = l0 at h5
      cases h5 with
      | endWord => cases ek
      | endEscaped => cases e
      | endBackslash => cases e
      | consPiece _ h6 _ =>
        obtain ⟨t, l', e', ht, -⟩ := h6.piece_head
        rw [← e] at e'
        cases e'
        cases ht

def wordToks : List Token := [.SingleQuote, .DoubleQuote, .Dollar, .Backtick] ++ (operators.map (·.2)).filter fun | .ParamPositional _ => true | _ => false

/-- How a command starts. -/
theorem first_start {w : Str} {W : SWord} (h : WholeWord cc w W) (hf : FirstWord cc w) {x : Str} (hb : NB cc x)
    (hx : ∀ l, lex cc x ≠ .ParenOpen :: l) :
    SimpleStart (lex cc (w ++ ' ' :: x)) ∧ ¬ AssignStart (lex cc (w ++ ' ' :: x)) := by
  rcases hf with ⟨c, r, rfl, hc⟩ | ⟨hn, hres⟩
  · have key : ∀ t l, lex cc ((c :: r) ++ ' ' :: x) = t :: l → (∀ y, t ≠ .Name y) ∧ (∀ y, t ≠ .Literal y) ∧
        t ∉ [Token.Newline, .Pound, .ParenClose, .CurlyClose, .DSemi, .ParenOpen, .CurlyOpen, .Bang] := by
      intro t l e
      obtain ⟨p, hp, h1, l', h2⟩ := first_op (cc := cc) (c := c) (by rw [opStart_iff]; clear h e; revert c; decide) (r ++ ' ' :: x)
      have e' : lex cc (c :: (r ++ ' ' :: x)) = t :: l := e
      rw [h2] at e'
      cases e'
      have hops : ∀ p ∈ operators, ∀ c ∈ ['\'', '"', '$', '`'], p.1.head? = some c → p.2 ∈ wordToks := by decide
      have hm := hops p hp c hc h1
      have hnot : ∀ t ∈ wordToks, t ∉ [Token.Newline, .Pound, .ParenClose, .CurlyClose, .DSemi, .ParenOpen, .CurlyOpen, .Bang] := by decide
      refine ⟨?_, ?_, hnot _ hm⟩ <;> intro y e <;> rw [e] at hm <;> simp [wordToks] at hm
    have hne : ∃ t l, lex cc ((c :: r) ++ ' ' :: x) = t :: l := by
      obtain ⟨p, hp, h1, l', h2⟩ := first_op (cc := cc) (c := c) (by rw [opStart_iff]; clear h key; revert c; decide) (r ++ ' ' :: x)
      exact ⟨_, _, h2⟩
    obtain ⟨t, l, e⟩ := hne
    obtain ⟨k1, k2, k3⟩ := key t l e
    have hnb := h.nb (' ' :: x)
    rw [NB, e] at hnb
    rw [e]
    refine ⟨⟨?_, ⟨_, _, rfl, k3⟩, ?_, ?_, hnb⟩, ?_⟩
    · rintro y hy r' ⟨e | e, -⟩ <;> cases e
      · exact k1 _ rfl
      · exact k2 _ rfl
    · rintro y r' e; cases e; exact k1 _ rfl
    · rintro y z r' e; cases e; exact k1 _ rfl
    · rintro ⟨y, r', e⟩; cases e; exact k1 _ rfl
  · have hsh : Shape cc (.Name w) := C02_token_shapes cc w _ (by rw [hn]; simp)
    have hwe : WordEnd cc (' ' :: x) := .inr ⟨_, _, rfl, .inl ⟨hs.space, by decide⟩⟩
    rw [lex_name' hs hsh (hwe.notPlain.nameStop hs), lex_sp hs hb]
    refine ⟨⟨?_, ⟨_, _, rfl, by simp⟩, by simp [wsp], ?_, name_nb _ _⟩, ?_⟩
    · rintro y hy r ⟨e | e, -⟩ <;> cases e
      exact hres hy
    · intro y z r e
      simp only [List.cons.injEq] at e
      exact hx _ e.2.2
    · rintro ⟨y, r, e⟩
      cases e

/-- No word starts with a parenthesis. -/
theorem Spec.WholeWord.not_paren {w : Str} {W : SWord} (h : WholeWord cc w W) (x : Str) (l : List Token) :
    lex cc (w ++ ' ' :: x) ≠ .ParenOpen :: l := by
  intro e
  have hr := wordP_iff.1 (h.reads (' ' :: x) (.inl rfl))
  rw [e] at hr
  exact wordP_paren hr

/-- **C53.** Words, the first of which can be the name of a command, are a command with these words. -/
theorem C53_command (w : Str × SWord) (ws : List (Str × SWord)) (hw : ∀ x ∈ w :: ws, WholeWord cc x.1 x.2) (hf : FirstWord cc w.1) :
    Whole cc (wordsText ((w :: ws).map (·.1))) [one (wordsCommand ((w :: ws).map (·.2)))] := by
  refine whole_command fun q => ⟨_, rfl, ?_⟩
  have hws : ∀ x ∈ ws, WholeWord cc x.1 x.2 := fun x hx => hw x (List.mem_cons_of_mem _ hx)
  have h0 := hw w (by simp)
  have hnb : Gram.NoBlank (Token.Newline :: lex cc q) := by simp [Gram.NoBlank]
  have hb := wordsText_nb hs hws (rest := '\n' :: q) (by rw [NB, lex_newline]; exact hnb)
  have e : wordsText ((w :: ws).map (·.1)) ++ '\n' :: q = w.1 ++ ' ' :: (wordsText (ws.map (·.1)) ++ '\n' :: q) := by
    simp [wordsText]
  have ha := argsW_reads hs hws q
  have hr := h0.redirect hs hb
  have hst := first_start hs h0 hf (x := wordsText (ws.map (·.1)) ++ '\n' :: q) hb (by
    intro l
    cases ws with
    | nil => simp [wordsText, lex_newline]
    | cons v ws =>
      have := (hws v (by simp)).not_paren hs (wordsText (ws.map (·.1)) ++ '\n' :: q) l
      simpa [wordsText] using this)
  rw [e]
  generalize lex cc (w.1 ++ ' ' :: (wordsText (ws.map (·.1)) ++ '\n' :: q)) = L at *
  have hsm : RD .simple L (wordsCommand ((w :: ws).map (·.2))) (.Newline :: lex cc q) := by
    refine .simple (e := some w.2) (.assignsWord (.refl hst.1.nb) hst.2 hr) ha (by simp) ?_
    simp [wordsCommand]
    rfl
  refine ⟨hst.1.starts, ?_, .commandSimple (.refl hst.1.nb) hst.1.compound hst.1.function hsm⟩
  obtain ⟨t, l', e, ht⟩ := hst.1.ne
  rintro l'' e'
  rw [e'] at e
  cases e
  simp at ht

/-- **C53.** A quoted string is a word. -/
theorem C53_quoted_word (s : Str) : ∃ W, quotedText W = some s ∧ WholeWord cc (shellQuote s) W := by
  obtain ⟨ws, -, hq, -, -⟩ := quoted_reads (B := DefaultBuilder) hs () [] (by rw [lex_nil]; intro t r e; cases e) s
  refine ⟨stringCore.word (wordWith ws), quoted_word hq, ⟨'\'', _, rfl, by decide, (hs.op _ (.inl (by rw [opStart_iff]; decide))).2 (by decide)⟩, ?_⟩
  intro q hr
  have hend : Gram.EndsWord (lex cc q) := by
    have : WordEnd cc q := by
      cases q with
      | nil => simp at hr
      | cons c q =>
        rcases hr with hr | hr <;> cases hr
        · exact .inr ⟨_, _, rfl, .inl ⟨hs.space, by decide⟩⟩
        · exact tail_op (by decide)
    exact this.ends hs
  obtain ⟨ws', h1, h2⟩ := C24_quoting_round_trip (B := DefaultBuilder) cc hs s q hend ()
  obtain rfl := h1.unique hq
  exact h2 _ _ rfl

/-- **C53.** A name is a word. -/
theorem C53_name_word (x : Str) (hx : lex cc x = [.Name x]) :
    WholeWord cc x (.mk (.Single (.Simple (.Literal x)))) := by
  have hsh : Shape cc (.Name x) := C02_token_shapes cc x _ (by rw [hx]; simp)
  have hstart : ∃ c r, x = c :: r ∧ c ≠ '\\' ∧ cc.whitespace c = false := by
    obtain ⟨c, w, rfl, hc, -⟩ := hsh
    have hp : cc.nameChar c = true := by
      simp only [CharClass.nameChar, CharClass.nameStart]
      rcases hc with rfl | hc <;> simp [*]
    exact ⟨c, w, rfl, (hs.plain hp).1, (hs.plain hp).2.2⟩
  refine ⟨hstart, fun q hr => ?_⟩
  have hwe : WordEnd cc q := by
    cases q with
    | nil => simp at hr
    | cons c q =>
      rcases hr with hr | hr <;> cases hr
      · exact .inr ⟨_, _, rfl, .inl ⟨hs.space, by decide⟩⟩
      · exact tail_op (by decide)
  rw [wordP_iff, lex_name' hs hsh (hwe.notPlain.nameStop hs)]
  exact .wordPSome (Reads.someWord (ws := [_]) (.refl (name_nb _ _)) (by simp) (.consPiece (by simp) .name (.endWord (hwe.ends hs)))) rfl

/-- **C53.** A script in a command substitution is a word with its commands. -/
theorem C53_substitution (p : Str) (cs : List SCommand) (hp : Whole cc p cs) (h0 : p.head? ≠ some '(') :
    WholeWord cc (substText p) (.mk (.Single (.Simple (.Subst (.Command cs))))) := by
  refine ⟨⟨'$', _, rfl, by decide, (hs.op _ (.inl (by rw [opStart_iff]; decide))).2 (by decide)⟩, fun q hr => ?_⟩
  have e : substText p ++ q = '$' :: '(' :: (p ++ '\n' :: ')' :: q) := by
    have h : substText p = '$' :: '(' :: p ++ ['\n', ')'] := rfl
    rw [h]; simp
  have hcl : lex cc (')' :: q) = .ParenClose :: lex cc q := lex_end hs .ParenClose _ (by decide) (by decide)
  obtain ⟨ns, h⟩ := hp.group (cfg := parenDelim) (q := ')' :: q) ⟨by simp [parenDelim, EndTok], by simp [parenDelim], by simp [parenDelim]⟩
    (by rw [hcl]; exact ⟨by simp [Gram.NoBlank], by intro r; simp, .inl (.inl ⟨_, by simp [parenDelim], _, rfl⟩)⟩)
    (by simp [groupEnds, parenDelim])
  rw [hcl] at h
  have hwe : WordEnd cc q := by
    cases q with
    | nil => simp at hr
    | cons c q =>
      rcases hr with hr | hr <;> cases hr
      · exact .inr ⟨_, _, rfl, .inl ⟨hs.space, by decide⟩⟩
      · exact tail_op (by decide)
  have hno : ∀ l', lex cc (p ++ '\n' :: ')' :: q) ≠ .ParenOpen :: l' := by
    intro l' e
    have := C01_concat_tokens cc (p ++ '\n' :: ')' :: q)
    rw [e] at this
    cases p with
    | nil => simp [concatTokens, Token.asStr] at this
    | cons c p => simp [concatTokens, Token.asStr] at this; simp [← this.1] at h0
  rw [wordP_iff, e, lex_dollar hs (by intro c hc; cases hc; decide), open_paren hs]
  refine .wordPSome (Reads.someWord (ws := [_]) (.refl (by simp [Gram.NoBlank])) (by simp) (.consPiece (by simp)
    (.pieceParam (.commandSubst ?_ (.subshell h (fun _ => rfl)))) (.endWord (hwe.ends hs)))) rfl
  intro l' e
  injection e with _ e
  exact hno _ e


omit hs in
theorem command_compound {b b' : DefaultBuilder.State} {l r : List Token} {p : SPipeable}
    {c : CompoundCommand (CompoundCommandKind Str SWord SCommand) (Redirect SWord)}
    (h : Reads (B := DefaultBuilder) .command b l p r b') (ep : p = .Compound c) (hl : Gram.NoBlank l) :
    ∃ kw, CompoundStart l kw ∧ Reads (B := DefaultBuilder) (.compound kw) b l c r b' := by
  cases h with
  | commandCompound k1 k2 k3 k4 =>
    have := k1.of_noBlank hl
    subst this
    cases congrArg Prod.fst k4
    cases ep
    exact ⟨_, k2, k3⟩
  | commandFunction k1 k2 k3 k4 =>
    cases k4 with
    | function _ _ _ _ _ _ k5 => cases congrArg Prod.fst k5; cases ep
    | functionSubshell _ _ _ k5 => cases congrArg Prod.fst k5; cases ep
  | commandSimple k1 k2 k3 k4 =>
    cases k4 with
    | simple _ _ _ k5 => cases congrArg Prod.fst k5; cases ep

omit hs in
/-- In place of a compound command there can be another command that starts differently. -/
theorem complete_swap {b b' : DefaultBuilder.State} {ns : List Nl} {l r L : List Token}
    {c : CompoundCommand (CompoundCommandKind Str SWord SCommand) (Redirect SWord)} {P : SPipeable} {a : SCommand} (ha : a = one (.Compound c))
    (h : Reads (B := DefaultBuilder) (.complete ns) b l a r b') (hl : Gram.NoBlank l) (hL : Gram.NoBlank L) (hB : ∀ l', L ≠ .Bang :: l')
    (hnew : ∀ kw l2 b2, CompoundStart l kw → Reads (B := DefaultBuilder) (.compound kw) b l c l2 b2 →
      Reads (B := DefaultBuilder) .command b L P l2 b2) :
    Reads (B := DefaultBuilder) (.complete []) b L (one P) r b' := by
  cases h with
  | @complete _ _ _ _ _ _ s _ _ _ _ h1 h2 h3 =>
    cases h1 with
    | @andOr _ _ x _ _ xs _ _ _ _ h4 h5 h6 =>
      cases congrArg Prod.fst h6
      have fin : x = .Single (.Compound c) ∧ xs = [] ∧ s ≠ .Amp := by
        have : a = .mk (.List ⟨x, xs.map (·.2)⟩) ∧ s ≠ .Amp ∨ a = .mk (.Job ⟨x, xs.map (·.2)⟩) := by
          cases s <;> cases congrArg Prod.fst h3 <;> simp
        rcases this with ⟨e, e2⟩ | e
        · rw [ha] at e
          simp [one] at e
          exact ⟨e.1.symm, by simpa using e.2, e2⟩
        · rw [ha] at e
          simp [one] at e
      obtain ⟨rfl, rfl, hs⟩ := fin
      generalize ex : ListableCommand.Single (PipeableCommand.Compound c) = x at h4
      cases h4 with
      | pipeline h7 h8 h9 h10 =>
        have := h7.of_noBlank hl
        subst this
        have hps : ∀ {bang : Bool} {ps : List (List Nl × SPipeable)} {x : ListableCommand SPipeable} {b b' : DefaultBuilder.State},
            Gram.Calls (B := DefaultBuilder) (.pipeline bang ps) b x b' → x = .Single (.Compound c) →
            bang = false ∧ ∃ n, ps = [(n, .Compound c)] := by
          intro bang ps x b b' h e
          rcases ps with _ | ⟨p, _ | ⟨q, ps⟩⟩
          · cases congrArg Prod.fst h
          · cases bang
            · cases congrArg Prod.fst h
              obtain ⟨n, p⟩ := p
              injection e with e
              exact ⟨rfl, n, by simp at e; rw [e]⟩
            · cases congrArg Prod.fst h; cases e
          · cases bang <;> (cases congrArg Prod.fst h; cases e)
        obtain ⟨rfl, n, rfl⟩ := hps h10 ex.symm
        rcases h8 with ⟨h8, -⟩ | ⟨-, rfl, -⟩
        · cases h8
        cases h9 with
        | pipeLast h11 h12 h13 =>
          obtain ⟨kw, k1, k2⟩ := command_compound h12 rfl hl
          refine .complete (.andOr (.pipeline (.refl hL) (.inr ⟨rfl, rfl, hB⟩) (.pipeLast hB (hnew _ _ _ k1 k2) h13) rfl) h5 rfl) h2 ?_
          cases s
          all_goals first | exact absurd rfl hs | rfl
        | pipeCons _ _ _ h14 => cases h14

/-- **C53.** A script that is one compound command can be the body of a function. -/
theorem C53_function (x : Str) (hx : lex cc x = [.Name x]) (hr : x ∉ reservedWords) (p : Str)
    (c : CompoundCommand (CompoundCommandKind Str SWord SCommand) (Redirect SWord)) (hp : Whole cc p [one (.Compound c)]) :
    Whole cc (functionText x p) [one (.FunctionDef x c)] := by
  have hsh : Shape cc (.Name x) := C02_token_shapes cc x _ (by rw [hx]; simp)
  rw [whole_iff] at *
  intro q ms r hq
  have e : functionText x p ++ '\n' :: q = x ++ '(' :: ')' :: (p ++ '\n' :: q) := by
    have h : functionText x p = x ++ ['(', ')'] ++ p := rfl
    rw [h]; simp
  rw [e, lex_name' hs hsh ((tail_op (c := '(') (by decide)).notPlain.nameStop hs), open_paren hs,
    show lex cc (')' :: (p ++ '\n' :: q)) = .ParenClose :: lex cc (p ++ '\n' :: q) from lex_end hs .ParenClose _ (by decide) (by decide)]
  have h := hp q ms r hq
  generalize lex cc (p ++ '\n' :: q) = L at h
  cases h with
  | cons h1 h2 =>
    generalize ea : some (one (PipeableCommand.Compound c)) = a at h1
    cases h1 with
    | topCommand h3 h4 h5 =>
      injection ea with ea
      obtain ⟨f1, f2, f3⟩ := fn_name hs (L := .ParenOpen :: .ParenClose :: L) hr
      refine .cons (.topCommand (ns := []) (.nil (.refl (name_nb _ _)) (by intro r; simp)) (by simp)
        (complete_swap ea.symm h5 (Lines.noBlank h3) (name_nb _ _) (by simp) ?_)) h2
      intro kw l2 b2 k1 k2
      exact .commandFunction (.refl (name_nb _ _)) f2 .paren
        (.function (found := false) (.inr ⟨rfl, rfl, f3⟩) (.refl (name_nb _ _)) (.fnParens ⟨_, rfl, .refl (by simp [Gram.NoBlank])⟩) h3 k1 k2 rfl)
    | topNone => cases ea
    | topComments => cases ea

variable (hl : Latin cc)
include hl

/-- What comes after the words of a `for`. -/
theorem for_start {x : Str} (hx : lex cc x = [.Name x]) {M : Str} (hM : WordEnd cc M) :
    CmdStart (lex cc (FOR ++ ' ' :: (x ++ M))) ∧ (∀ l', lex cc (FOR ++ ' ' :: (x ++ M)) ≠ .Bang :: l') ∧
    Gram.Keyword FOR (lex cc (FOR ++ ' ' :: (x ++ M))) (lex cc (' ' :: (x ++ M))) ∧
    Gram.Skip (lex cc (' ' :: (x ++ M))) (.Name x :: lex cc M) := by
  have hsh : Shape cc (.Name x) := C02_token_shapes cc x _ (by rw [hx]; simp)
  have hxm := lex_name' hs hsh (hM.notPlain.nameStop hs)
  have hnb : NB cc (x ++ M) := by rw [NB, hxm]; exact name_nb _ _
  have hw : WordEnd cc (' ' :: (x ++ M)) := .inr ⟨_, _, rfl, .inl ⟨hs.space, by decide⟩⟩
  obtain ⟨s1, s2⟩ := start_kwW hs hl (w := FOR) (by decide) (by decide) hw
  refine ⟨s1, s2, keywordW hs hl (by decide) hw, ?_⟩
  rw [lex_sp hs hnb, hxm]
  exact skip_blank (.refl (name_nb _ _))

/-- The command of `C53_for_args`. -/
theorem line_for_args (x : Str) (hx : lex cc x = [.Name x]) (p : Str) (cs : List SCommand) (hp : Whole cc p cs) (hc : Fits ["done"] cs) :
    LineCommand cc (forText x none p) (.Compound ⟨.For x none cs, []⟩) := by
  refine line_compound fun q => ⟨_, .For, rfl, ?_⟩
  obtain ⟨ns, hd⟩ := do_line hs hl hp hc q
  have e : forText x none p ++ '\n' :: q = FOR ++ ' ' :: (x ++ '\n' :: (DO ++ '\n' :: (p ++ '\n' :: (DONE ++ '\n' :: q)))) := by
    have h : forText x none p = lines [FOR ++ ' ' :: x, DO, p, DONE] := rfl
    rw [h]; simp [lines]
  have hdo := kw_line hs hl (w := DO) (by decide) (p ++ '\n' :: (DONE ++ '\n' :: q))
  rw [e]
  generalize DO ++ '\n' :: (p ++ '\n' :: (DONE ++ '\n' :: q)) = Y at *
  obtain ⟨h1, h2, h3, h4⟩ := for_start hs hl hx (M := '\n' :: Y) (tail_op (by decide))
  refine ⟨h1, h2, .forKw h3, ?_⟩
  rw [lex_newline] at h4
  refine .compoundFor (f := ⟨x, some ⟨none⟩, none, [], ⟨cs, ns⟩⟩) (.forCommand ⟨_, .refl h1.nb, h3⟩ h4
    (.some (.newline (bs := []) .nil)) (.nil (.refl (by rw [hdo]; exact name_nb _ _)) (by rw [hdo]; intro r; simp))
    (.forDo (.refl (by rw [hdo]; exact name_nb _ _)) (by rw [hdo]; exact ⟨.inl rfl, ends_newline _⟩)) hd) (redirects_nl _) rfl

/-- **C53.** `for` over the arguments. -/
theorem C53_for_args (x : Str) (hx : lex cc x = [.Name x]) (p : Str) (cs : List SCommand) (hp : Whole cc p cs) (hc : Fits ["done"] cs) :
    Whole cc (forText x none p) [comp (.For x none cs)] :=
  whole_command (line_for_args hs hl x hx p cs hp hc)

/-- The command of `C53_for`. -/
theorem line_for (x : Str) (hx : lex cc x = [.Name x]) (ws : List (Str × SWord)) (hw : ∀ w ∈ ws, WholeWord cc w.1 w.2)
    (p : Str) (cs : List SCommand) (hp : Whole cc p cs) (hc : Fits ["done"] cs) :
    LineCommand cc (forText x (some (ws.map (·.1))) p) (.Compound ⟨.For x (some (ws.map (·.2))) cs, []⟩) := by
  refine line_compound fun q => ⟨_, .For, rfl, ?_⟩
  obtain ⟨ns, hd⟩ := do_line hs hl hp hc q
  have e : forText x (some (ws.map (·.1))) p ++ '\n' :: q = FOR ++ ' ' :: (x ++ ' ' :: (IN ++ ' ' :: (wordsText (ws.map (·.1)) ++
      '\n' :: (DO ++ '\n' :: (p ++ '\n' :: (DONE ++ '\n' :: q)))))) := by
    have h : forText x (some (ws.map (·.1))) p = lines [FOR ++ ' ' :: x ++ ' ' :: IN ++ ' ' :: wordsText (ws.map (·.1)), DO, p, DONE] := by
      simp only [forText, lines]
      have e1 : "for ".toList = FOR ++ [' '] := rfl
      have e2 : " in ".toList = ' ' :: IN ++ [' '] := rfl
      rw [e1, e2]
      simp
      rfl
    rw [h]; simp [lines]
  have hdo := kw_line hs hl (w := DO) (by decide) (p ++ '\n' :: (DONE ++ '\n' :: q))
  rw [e]
  generalize DO ++ '\n' :: (p ++ '\n' :: (DONE ++ '\n' :: q)) = Y at *
  have hwr := words_reads hs hw Y
  have hnb : Gram.NoBlank (Token.Newline :: lex cc Y) := by simp [Gram.NoBlank]
  have hwn := wordsText_nb hs hw (rest := '\n' :: Y) (by rw [NB, lex_newline]; exact hnb)
  have hin : lex cc (IN ++ ' ' :: (wordsText (ws.map (·.1)) ++ '\n' :: Y)) = .Name IN :: wsp :: lex cc (wordsText (ws.map (·.1)) ++ '\n' :: Y) :=
    lex_kw hs hl _ _ (by decide) hwn
  obtain ⟨h1, h2, h3, h4⟩ := for_start hs hl hx (M := ' ' :: (IN ++ ' ' :: (wordsText (ws.map (·.1)) ++ '\n' :: Y)))
    (.inr ⟨_, _, rfl, .inl ⟨hs.space, by decide⟩⟩)
  have hinb : NB cc (IN ++ ' ' :: (wordsText (ws.map (·.1)) ++ '\n' :: Y)) := by rw [NB, hin]; exact name_nb _ _
  rw [lex_sp hs hinb, hin] at h4
  refine ⟨h1, h2, .forKw h3, ?_⟩
  refine .compoundFor (f := ⟨x, none, some ([], ws.map (·.2), some ⟨none⟩), [], ⟨cs, ns⟩⟩) (.forCommand ⟨_, .refl h1.nb, h3⟩ h4
    (.none (skip_blank (.refl (name_nb _ _))) (by intro r; simp)) (.nil (.refl (name_nb _ _)) (by intro r; simp))
    (.forIn ⟨_, .refl (name_nb _ _), .inl rfl, ends_wsp _⟩ (words_blank hwr) (.inr ⟨rfl, by simp, rfl⟩) (.some (.newline (bs := []) .nil))
      (.nil (.refl (by rw [hdo]; exact name_nb _ _)) (by rw [hdo]; intro r; simp))) hd) (redirects_nl _) rfl

/-- **C53.** `for` over words. -/
theorem C53_for (x : Str) (hx : lex cc x = [.Name x]) (ws : List (Str × SWord)) (hw : ∀ w ∈ ws, WholeWord cc w.1 w.2)
    (p : Str) (cs : List SCommand) (hp : Whole cc p cs) (hc : Fits ["done"] cs) :
    Whole cc (forText x (some (ws.map (·.1))) p) [comp (.For x (some (ws.map (·.2))) cs)] :=
  whole_command (line_for hs hl x hx ws hw p cs hp hc)

/-! ### `case` -/

omit hl in
theorem patterns_reads {w : Str × SWord} {ws : List (Str × SWord)} (h : ∀ x ∈ w :: ws, WholeWord cc x.1 x.2) (rest : Str) :
    RD .patterns (lex cc (patternText ((w :: ws).map (·.1)) ++ '\n' :: rest)) ((w :: ws).map (·.2)) (.Newline :: lex cc rest) ∧
      NB cc (patternText ((w :: ws).map (·.1)) ++ '\n' :: rest) := by
  induction ws generalizing w with
  | nil =>
    have hcl := close_paren hs rest
    have e : patternText ([w].map (·.1)) ++ '\n' :: rest = w.1 ++ ' ' :: (')' :: '\n' :: rest) := by
      have h : patternText ([w].map (·.1)) = w.1 ++ [' ', ')'] := rfl
      rw [h]; simp
    have hw := (h w (by simp)).word hs (rest := ')' :: '\n' :: rest) (by rw [NB, hcl]; simp [Gram.NoBlank])
    rw [hcl] at hw
    rw [e]
    exact ⟨.patternLast hw, (h w (by simp)).nb _⟩
  | cons v ws ih =>
    obtain ⟨i1, i2⟩ := ih (w := v) (fun x hx => h x (List.mem_cons_of_mem _ hx))
    have e : patternText ((w :: v :: ws).map (·.1)) ++ '\n' :: rest = w.1 ++ ' ' :: ('|' :: ' ' :: (patternText ((v :: ws).map (·.1)) ++ '\n' :: rest)) := by
      have h : patternText ((w :: v :: ws).map (·.1)) = w.1 ++ [' ', '|', ' '] ++ patternText ((v :: ws).map (·.1)) := rfl
      rw [h]; simp
    rw [e]
    generalize patternText ((v :: ws).map (·.1)) ++ '\n' :: rest = Y at *
    have hpi : lex cc ('|' :: ' ' :: Y) = .Pipe :: wsp :: lex cc Y := by
      rw [← lex_sp hs i2]
      exact lex_token hs .Pipe ' ' _ (by decide) (by decide)
    have hw := (h w (by simp)).word hs (rest := '|' :: ' ' :: Y) (by rw [NB, hpi]; simp [Gram.NoBlank])
    rw [hpi] at hw
    exact ⟨.patternCons hw (patterns_blank i1), (h w (by simp)).nb _⟩

/-- Patterns that are words, and a script that fits before `;;`. -/
def Spec.CaseArmOk (cc : CharClass) (a : (List (Str × SWord)) × Str × List SCommand) : Prop :=
  a.1 ≠ [] ∧ (∀ w ∈ a.1, WholeWord cc w.1 w.2) ∧ Whole cc a.2.1 a.2.2 ∧ ∀ c ∈ a.2.2, opens c ≠ some "esac".toList

theorem arms_reads {as : List ((List (Str × SWord)) × Str × List SCommand)} (h : ∀ a ∈ as, CaseArmOk cc a) (x : Str) :
    ∃ bs, RD .arms (lex cc (lines (armLines (as.map fun a => (a.1.map (·.1), a.2.1))) ++ '\n' :: x)) (bs, []) (.Name ESAC :: .Newline :: lex cc x) ∧
      bs.map (fun a => (⟨a.patterns.patternAlternatives, a.body.commands⟩ : PatternBodyPair SWord SCommand)) =
        as.map fun a => ⟨a.1.map (·.2), a.2.2⟩ := by
  induction as with
  | nil =>
    refine ⟨[], ?_, rfl⟩
    have e : lines (armLines []) ++ '\n' :: x = ESAC ++ '\n' :: x := rfl
    simp only [List.map_nil]
    rw [e, kw_line hs hl (by decide)]
    exact .armsEnd (.nil (.refl (name_nb _ _)) (by intro r; simp)) ⟨.inl rfl, ends_newline _⟩
  | cons a as ih =>
    obtain ⟨bs, i1, i2⟩ := ih fun b hb => h b (List.mem_cons_of_mem _ hb)
    obtain ⟨ws, p, cs⟩ := a
    obtain ⟨h1, h2, h3, h4⟩ := h (ws, p, cs) (by simp)
    have hne : armLines (as.map fun a => (a.1.map (·.1), a.2.1)) ≠ [] := by cases as <;> exact List.cons_ne_nil _ _
    have e : lines (armLines (((ws, p, cs) :: as).map fun a => (a.1.map (·.1), a.2.1))) ++ '\n' :: x =
        '(' :: (patternText (ws.map (·.1)) ++ '\n' :: (p ++ '\n' :: (';' :: ';' :: '\n' ::
          (lines (armLines (as.map fun a => (a.1.map (·.1), a.2.1))) ++ '\n' :: x)))) := by
      have h : armLines (((ws, p, cs) :: as).map fun a => (a.1.map (·.1), a.2.1)) =
        ('(' :: patternText (ws.map (·.1))) :: p :: [';', ';'] :: armLines (as.map fun a => (a.1.map (·.1), a.2.1)) := rfl
      rw [h, lines_cons _ (by simp), lines_cons _ (by simp), lines_cons _ hne]
      simp
    rw [e]
    generalize lines (armLines (as.map fun a => (a.1.map (·.1), a.2.1))) ++ '\n' :: x = Y at *
    have hds : lex cc (';' :: ';' :: '\n' :: Y) = .DSemi :: .Newline :: lex cc Y := by
      rw [← lex_newline]
      exact lex_end hs .DSemi _ (by decide) (by decide)
    obtain ⟨ns, g⟩ := h3.group (cfg := armDelim) (q := ';' :: ';' :: '\n' :: Y)
      ⟨by simp [armDelim, EndTok], by simp [armDelim]; decide, by simp [armDelim]⟩
      (by rw [hds]; exact ⟨by simp [Gram.NoBlank], by intro r; simp, .inl (.inl ⟨.DSemi, by simp [armDelim], _, rfl⟩)⟩)
      (by
        intro c hc w hw
        have : w = ESAC := by simpa [groupEnds, armDelim] using hw
        subst this
        exact h4 c hc)
    obtain ⟨v, ws, rfl⟩ := List.exists_cons_of_ne_nil h1
    obtain ⟨k1, -⟩ := patterns_reads hs h2 (p ++ '\n' :: (';' :: ';' :: '\n' :: Y))
    rw [hds] at g
    rw [open_paren hs]
    refine ⟨⟨⟨[], (v :: ws).map (·.2), some ⟨none⟩⟩, ⟨cs, ns⟩, some ⟨none⟩⟩ :: bs, ?_, by simp [i2]⟩
    refine .armsCons (.nil (.refl (by simp [Gram.NoBlank])) (by intro r; simp)) ?_ (.inl rfl) k1 (.some (.newline (bs := []) .nil)) g
      (.some (.newline (bs := []) .nil)) i1
    rintro r ⟨e | e, -⟩ <;> cases e

/-- The command of `C53_case`. -/
theorem line_case (w : Str) (W : SWord) (hw : WholeWord cc w W) (as : List ((List (Str × SWord)) × Str × List SCommand)) (has : ∀ a ∈ as, CaseArmOk cc a) :
    LineCommand cc (caseText w (as.map fun a => (a.1.map (·.1), a.2.1))) (.Compound ⟨.Case W (as.map fun a => ⟨a.1.map (·.2), a.2.2⟩), []⟩) := by
  refine line_compound fun x => ⟨_, .Case, rfl, ?_⟩
  obtain ⟨bs, h1, h2⟩ := arms_reads hs hl has x
  have hne : armLines (as.map fun a => (a.1.map (·.1), a.2.1)) ≠ [] := by cases as <;> exact List.cons_ne_nil _ _
  have e : caseText w (as.map fun a => (a.1.map (·.1), a.2.1)) ++ '\n' :: x =
      CASE ++ ' ' :: (w ++ ' ' :: (IN ++ '\n' :: (lines (armLines (as.map fun a => (a.1.map (·.1), a.2.1))) ++ '\n' :: x))) := by
    have h : caseText w (as.map fun a => (a.1.map (·.1), a.2.1)) = lines ((CASE ++ [' '] ++ w ++ ' ' :: IN) :: armLines (as.map fun a => (a.1.map (·.1), a.2.1))) := rfl
    rw [h, lines_cons _ hne]; simp
  rw [e, ← h2]
  generalize lines (armLines (as.map fun a => (a.1.map (·.1), a.2.1))) ++ '\n' :: x = Y at *
  have hin := kw_line hs hl (w := IN) (by decide) Y
  have hinb : NB cc (IN ++ '\n' :: Y) := by rw [NB, hin]; exact name_nb _ _
  have hwr := hw.word hs hinb
  have hwb := hw.nb (' ' :: (IN ++ '\n' :: Y))
  obtain ⟨s1, s2⟩ := start_kw hs hl (w := CASE) (by decide) (by decide) hwb
  have hkw : Gram.Keyword CASE (lex cc (CASE ++ ' ' :: (w ++ ' ' :: (IN ++ '\n' :: Y)))) (wsp :: lex cc (w ++ ' ' :: (IN ++ '\n' :: Y))) := by
    rw [lex_kw hs hl _ _ (by decide) hwb]
    exact ⟨.inl rfl, ends_wsp _⟩
  rw [hin] at hwr
  refine ⟨s1, s2, .caseKw hkw, ?_⟩
  refine .compoundCase (f := ⟨W, [], some ⟨none⟩, bs, [] ++ []⟩) (.caseCommand ⟨_, .refl s1.nb, hkw⟩ (word_blank hwr)
    (.nil (.refl (name_nb _ _)) (by intro r; simp)) ⟨_, .refl (name_nb _ _), .inl rfl, ends_newline _⟩
    (.some (.newline (bs := []) .nil)) h1 (.nil (.refl (name_nb _ _)) (by intro r; simp)) ⟨_, .refl (name_nb _ _), .inl rfl, ends_newline _⟩)
    (redirects_nl _) rfl

/-- **C53.** `case`, with any arms. -/
theorem C53_case (w : Str) (W : SWord) (hw : WholeWord cc w W) (as : List ((List (Str × SWord)) × Str × List SCommand)) (has : ∀ a ∈ as, CaseArmOk cc a) :
    Whole cc (caseText w (as.map fun a => (a.1.map (·.1), a.2.1))) [comp (.Case W (as.map fun a => ⟨a.1.map (·.2), a.2.2⟩))] :=
  whole_command (line_case hs hl w W hw as has)

end

/-! ## Examples -/

theorem prog_unique {b : DefaultBuilder.State} {l : List Token} {cs ds : List SCommand} (h : Prog (B := DefaultBuilder) b l cs)
    (h' : Prog (B := DefaultBuilder) b l ds) : cs = ds := by
  induction h generalizing ds with
  | done h =>
    cases h' with
    | done => rfl
    | cons h1 h2 =>
      obtain ⟨_, e, _⟩ := prog_cons_unique h1 (.done h)
      cases e
  | cons h _ ih =>
    obtain ⟨_, rfl, h2⟩ := prog_cons_unique h h'
    rw [ih h2]

def endings : List Str := ["}", "do", "done", "then", "elif", "else", "fi", "esac"].map String.toList

theorem hereScript_fits : ∃ cs : List SCommand, Whole ascii hereScript cs ∧ cs.length = 3 ∧ ∀ c ∈ cs, ∀ w ∈ endings, opens c ≠ some w := by
  have key : ((scriptBefore "zz".toList 10 (PSt.new (I := CIter) (B := DefaultBuilder) (lex ascii (hereScript ++ '\n' :: "zz".toList)) ())).map
      fun cs => (cs.length, cs.all fun c => endings.all fun w => decide (opens c ≠ some w))) = some (3, true) := by
    decide +kernel
  obtain ⟨cs, h1, h2⟩ := Option.map_eq_some_iff.1 key
  simp only [Prod.mk.injEq, List.all_eq_true, decide_eq_true_eq] at h2
  exact ⟨cs, C53_whole_of_heredoc ascii ascii_sane _ "zz".toList cs (by decide +kernel) (by decide +kernel) (by decide +kernel) (by decide +kernel)
    (scriptBefore_sound h1), h2⟩

/-- The words of the example. -/
def testWord : Str := "test".toList

/-- The here-documents of C42 in parentheses, in a function, in a substitution, as an argument, in loops, in a
conditional, in a `case`. -/
example : ∃ cs : List SCommand, cs.length = 3 ∧ ∀ W, W = TopLevelWord.mk (.Single (.Simple (.Subst (.Command cs)))) →
    Whole ascii (ifText (wordsText [testWord, substText hereScript]) (functionText ['f'] (subshellText hereScript))
      [(forText ['x'] (some [substText hereScript, ['a']]) hereScript, hereScript)]
      (some (loopText' .Until hereScript (caseText (substText hereScript) [([substText hereScript, ['a']], hereScript)]))))
    [comp (.If [⟨[one (wordsCommand [.mk (.Single (.Simple (.Literal testWord))), W])],
        [one (.FunctionDef ['f'] ⟨.Subshell cs, []⟩)]⟩,
      ⟨[comp (.For ['x'] (some [W, .mk (.Single (.Simple (.Literal ['a'])))]) cs)], cs⟩]
      (some [comp (.Until ⟨cs, [comp (.Case W [⟨[W, .mk (.Single (.Simple (.Literal ['a'])))], cs⟩])]⟩)]))] := by
  obtain ⟨cs, hp, hlen, hf⟩ := hereScript_fits
  have h0 : hereScript.head? ≠ some '(' := by decide +kernel
  generalize hereScript = p at *
  have hne : cs ≠ [] := by rintro rfl; cases hlen
  refine ⟨cs, hlen, ?_⟩
  rintro W rfl
  have fits : ∀ ws : List String, (∀ w ∈ ws, w.toList ∈ endings) → Fits ws cs := fun ws h => ⟨hne, fun c hc w hw => hf c hc _ (h w hw)⟩
  have hsub := C53_substitution ascii_sane p cs hp h0
  have ha := C53_name_word ascii_sane ['a'] (by decide +kernel)
  have ht := C53_name_word ascii_sane testWord (by decide +kernel)
  have htr : testWord ∉ reservedWords := by decide +kernel
  have htl : lex ascii testWord = [.Name testWord] := by decide +kernel
  have hte : testWord ∉ endings := by decide +kernel
  generalize testWord = t at *
  have one_fits : ∀ (ws : List String) (c : SCommand), (∀ w ∈ ws, opens c ≠ some w.toList) → Fits ws [c] := by
    intro ws c h
    refine ⟨by simp, fun c' hc' w hw => ?_⟩
    rw [List.mem_singleton] at hc'
    rw [hc']
    exact h w hw
  have h1 := C53_command ascii_sane (t, _) [(substText p, _)] (by
    intro x hx
    simp only [List.mem_cons, List.not_mem_nil, or_false] at hx
    rcases hx with rfl | rfl
    · exact ht
    · exact hsub) (.inr ⟨htl, htr⟩)
  have h2 := C53_function ascii_sane ['f'] (by decide +kernel) (by decide +kernel) _ _ (C53_subshell ascii_sane p cs hp hne)
  have hws : ∀ w ∈ [(substText p, TopLevelWord.mk (.Single (.Simple (.Subst (.Command cs))))), (['a'], .mk (.Single (.Simple (.Literal ['a']))))],
      WholeWord ascii w.1 w.2 := by
    intro x hx
    simp only [List.mem_cons, List.not_mem_nil, or_false] at hx
    rcases hx with rfl | rfl
    · exact hsub
    · exact ha
  have h3 := C53_for ascii_sane ascii_latin ['x'] (by decide +kernel) _ hws p cs hp (fits _ (by decide))
  have h4 := C53_case ascii_sane ascii_latin _ _ hsub [(_, p, cs)] (by
    intro a ha
    rw [List.mem_singleton] at ha
    subst ha
    exact ⟨by simp, hws, hp, fun c hc => hf c hc _ (by decide)⟩)
  have h5 := C53_loop ascii_sane ascii_latin .Until p _ cs _ hp h4 (fits _ (by decide)) (one_fits _ _ (by intro w _; simp [comp, one, opens, pipeableOpens]))
  have := C53_if ascii_sane ascii_latin ((_, _), ⟨_, _⟩) [((_, p), ⟨_, cs⟩)] (some (_, _)) (by
    intro x hx
    simp only [List.mem_cons, List.not_mem_nil, or_false] at hx
    rcases hx with rfl | rfl
    · refine ⟨h1, one_fits _ _ ?_, h2, one_fits _ _ ?_⟩
      · intro w hw
        simp only [one, opens, pipeableOpens, wordsCommand, plainText, List.map_cons]
        rintro e
        injection e with e
        rw [List.mem_singleton] at hw
        subst hw
        exact hte (by rw [e]; decide)
      · intro w hw
        simp only [one, opens, pipeableOpens]
        revert w
        decide
    · exact ⟨h3, one_fits _ _ (by intro w _; simp [comp, one, opens, pipeableOpens]), hp, fits _ (by decide)⟩) (by
    rintro y e
    cases e
    exact ⟨h5, one_fits _ _ (by intro w _; simp [comp, one, opens, pipeableOpens])⟩)
  exact this

/-- **C53.** The conditions are needed: a script with a command `}` or `done` is cut off there. -/
theorem C53_conditions_needed :
    (∃ cs, Whole ascii "a\n}\nb".toList cs ∧ cs.length = 3 ∧ ¬ ∃ c, ParsesTo ascii (braceText "a\n}\nb".toList ++ ['\n']) [c]) ∧
    (∃ cs, Whole ascii "a\ndone\nb".toList cs ∧ cs.length = 3 ∧
      ¬ ∃ c, ParsesTo ascii (loopText' .While "x".toList "a\ndone\nb".toList ++ ['\n']) [c]) := by
  have key : ∀ (p : Str) (t : Str), (script 10 ⟨some (PSt.new (I := CIter) (B := DefaultBuilder) (lex ascii (p ++ ['\n'])) ())⟩).map List.length = some 3 →
      (¬ ['<', '<'] <:+: p) → p.getLast? ≠ some '\\' →
      (script 10 ⟨some (PSt.new (I := CIter) (B := DefaultBuilder) (lex ascii t) ())⟩).map List.length = some 3 →
      ∃ cs, Whole ascii p cs ∧ cs.length = 3 ∧ ¬ ∃ c, ParsesTo ascii t [c] := by
    intro p t h1 h2 h3 h4
    obtain ⟨cs, k1, k2⟩ := Option.map_eq_some_iff.1 h1
    obtain ⟨ds, k3, k4⟩ := Option.map_eq_some_iff.1 h4
    refine ⟨cs, C53_whole_of_parse ascii ascii_sane p cs h2 h3 (script_sound k1), k2, ?_⟩
    rintro ⟨c, hc⟩
    have := prog_unique (parsesTo_iff (b := u) |>.1 (script_sound k3)) (parsesTo_iff (b := u) |>.1 hc)
    rw [this] at k4
    cases k4
  exact ⟨key _ _ (by decide +kernel) (by decide +kernel) (by decide +kernel) (by decide +kernel),
    key _ _ (by decide +kernel) (by decide +kernel) (by decide +kernel) (by decide +kernel)⟩

end Conch
