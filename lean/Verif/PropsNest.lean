import Verif.PropsAppend
/-!
# C64: texts inside texts

Words are commands, lists are lines of a script, and a script inside a compound command is a command again: with C53,
C62 and C63 the tree of a text is put together from the trees of its parts, to any depth.
-/
namespace Conch
open Spec Gram

/-! ## Specification -/

/-- Words that are not commands on their own, when they are not quoted. -/
def Spec.compoundWords : List String := ["{", "for", "case", "if", "while", "until", "function"]

/-- The text starts like an assignment: a name and `=`. -/
def Spec.Assigns (cc : CharClass) (p : Str) : Prop := ∃ x s, lex cc x = [.Name x] ∧ p = x ++ '=' :: s

/-- A loop: its condition and its body. -/
def Spec.loopOf (k : LoopKind) (cs ds : List SCommand) : CompoundCommandKind Str SWord SCommand :=
  match k with
  | .While => .While ⟨cs, ds⟩
  | .Until => .Until ⟨cs, ds⟩

/-! ## Words -/

section
variable {cc : CharClass} {p q : Str} {l r Y : List Token} {b b' : DefaultBuilder.State}

theorem oneWord_redirect {w : SWord} (h : Reads (B := DefaultBuilder) .word b Y (some w) [] b') :
    ∃ bs, RD .redirect Y (some (.inr w)) bs ∧ RD .args bs [] [] := by
  cases h with
  | word h1 h2 =>
    cases h1 with
    | wordPSome h3 h4 =>
      obtain ⟨bs, rfl, h5, -⟩ := h2
      rw [List.append_nil] at h3
      have hr : ∀ t r', bs = t :: r' → t ∉ redirOps := by
        rintro t r' rfl
        cases h5 <;> simp [redirOps]
      refine ⟨bs, .redirectWord h3 (fun _ => hr) h4, .argsEnd ?_⟩
      have := redirect_blanks (B := DefaultBuilder) (b := b) (b' := b) h5 nil_redirect
      simpa using this

/-- A word of one token is all there is when a word could end after it. -/
theorem whole_word {t : Token} {pw} {w : SWord} (hf : Firm (t :: r)) (hnb : Gram.NoBlank (t :: r)) (ht : t ≠ .Pound)
    (hp : RD .piece (t :: r) pw r) (he : Gram.EndsWord r) (h : RD .word (t :: r) (some w) []) : r = [] := by
  obtain ⟨r', hr⟩ := skip_total r
  have g : ∃ w', RD .word (t :: r) (some w') r' :=
    ⟨_, .word (.wordPSome (.someWord (ws := [pw]) (.refl hnb) (by rintro q e; cases e; exact ht rfl)
      (.consPiece (by simp) hp (.endWord he))) rfl) hr⟩
  obtain ⟨w', g⟩ := g
  have := (C31_unambiguous (B := DefaultBuilder) .word trivial _ _ h g).2.1
  subst this
  obtain ⟨bs, e, h5, -⟩ := hr
  rw [List.append_nil] at e
  subst e
  exact (Firm.suffix (v := [t]) hf).blanks h5

theorem whole_keyword {v : Str} {W : SWord} (hf : Firm Y) (hnb : Gram.NoBlank Y) (h : RD .word Y (some W) []) (hk : Gram.Keyword v Y r) :
    Y = [.Name v] ∨ Y = [.Literal v] := by
  obtain ⟨rfl | rfl, he⟩ := hk
  · obtain rfl := whole_word hf hnb (by simp) .name he h
    exact .inl rfl
  · obtain rfl := whole_word hf hnb (by simp) .text he h
    exact .inr rfl

theorem keyword_text {v : Str} {W : SWord} (hf : Firm (lex cc p)) (hnb : Gram.NoBlank (lex cc p)) (h : RD .word (lex cc p) (some W) [])
    (hk : Gram.Keyword v (lex cc p) r) : p = v := by
  have := C01_concat_tokens cc p
  rcases whole_keyword hf hnb h hk with e | e <;> rw [e] at this <;> simpa [concatTokens, Token.asStr] using this.symm

variable (hs : cc.Sane)
include hs

/-- **C64.** A word is a command, unless it is one of the words that compound commands start with, or starts like an
assignment. -/
theorem C64_word {w : SWord} (hw : IsWord cc q w) (hnl : q.getLast? ≠ some '\n') (hk : ∀ k ∈ compoundWords, q ≠ k.toList)
    (ha : ¬ Assigns cc q) : IsCommand cc q (.Simple ⟨[], [.CmdWord w]⟩) := by
  obtain ⟨h0, h⟩ := isWord_iff.1 hw
  have hf := firm_text h0 hnl
  have hnb : Gram.NoBlank (lex cc q) := h0.nb
  have hc := C01_concat_tokens cc q
  obtain ⟨bs, h1, h2⟩ := oneWord_redirect h
  have key : ∀ {k : String} {r}, k ∈ compoundWords → ¬ Gram.Keyword k.toList (lex cc q) r := fun hm hkw => hk _ hm (keyword_text hf hnb h hkw)
  have hcs : ∀ kw, ¬ CompoundStart (lex cc q) kw := by
    intro kw hcs
    generalize e : lex cc q = L at hcs
    cases hcs with
    | subshell => rw [e] at h; exact no_paren h
    | brace he =>
      rw [e] at h hf hnb
      obtain rfl := whole_word hf hnb (by simp) (.literal (by decide)) he h
      rw [e] at hc
      exact hk "{" (by decide) hc.symm
    | forKw hkw => rw [← e] at hkw; exact key (k := "for") (by decide) hkw
    | caseKw hkw => rw [← e] at hkw; exact key (k := "case") (by decide) hkw
    | ifKw hkw => rw [← e] at hkw; exact key (k := "if") (by decide) hkw
    | whileKw hkw => rw [← e] at hkw; exact key (k := "while") (by decide) hkw
    | untilKw hkw => rw [← e] at hkw; exact key (k := "until") (by decide) hkw
  have hfs : ¬ FunctionStart (lex cc q) := by
    intro hfs
    generalize e : lex cc q = L at hfs
    cases hfs with
    | keyword hkw => rw [← e] at hkw; exact key (k := "function") (by decide) hkw
    | paren =>
      rw [e] at h hf hnb
      exact absurd (whole_word hf hnb (by simp) .name (by intro t q e; cases e; rfl) h) (by simp)
    | wsParen =>
      rw [e] at h hf hnb
      exact absurd (whole_word hf hnb (by simp) .name (by intro t q e; cases e; rfl) h) (by simp)
  have has : ¬ AssignStart (lex cc q) := by
    rintro ⟨x, r, e⟩
    refine ha ⟨x, concatTokens r, ?_, ?_⟩
    · have := lex_name' hs (C02_token_shapes cc q (.Name x) (by rw [e]; simp)) (s := []) (by intro c e; cases e)
      rw [List.append_nil] at this
      exact this
    · rw [← hc, e]
      simp [concatTokens, Token.asStr]
  exact isCommand_iff.2 ⟨h0, .commandSimple (.refl hnb) hcs hfs
    (simple_make (.inr (by simp)) (.inr ⟨_, _, _, .assignsWord (.refl hnb) has h1, h2, rfl⟩))⟩

/-! ## Lines -/

/-- **C64.** A list is a line of a script. -/
theorem C64_line {L : AndOrList (ListableCommand SPipeable)} (hp : IsList cc p L) : Whole cc p [.mk (.List L)] :=
  C53_whole_of_parse cc hs p _ hp.1.here (fun e => (hp.1.last _ e).1 rfl)
    ((C52_final_newline cc hs p hp.1.here (fun e => (hp.1.last _ e).1 rfl) _).1 ((C62_list_script hp _).2 rfl))

/-- **C64.** So is a list with `&` after it; it is a job then. -/
theorem C64_job {bl : Str} {L : AndOrList (ListableCommand SPipeable)} (hp : IsList cc p L) (hb : SomeBlanks cc bl) :
    Whole cc (p ++ bl ++ "&".toList) [.mk (.Job L)] := by
  have hh : ¬ ['<', '<'] <:+: p ++ bl ++ "&".toList := by
    intro h
    rcases infix_cut (u := p ++ bl) (v := []) (c := '&') (by decide) h with h | h
    · obtain ⟨d, bl, rfl⟩ := List.exists_cons_of_ne_nil hb.1
      have hlt : ∀ c ∈ d :: bl, c ≠ '<' := by
        rintro x hc rfl
        have := (hs.op '<' (.inl (by rw [opStart_iff]; decide))).2 (by decide)
        rw [(hb.2 _ hc).1] at this
        cases this
      rcases infix_cut (hlt d (by simp)) h with h | h
      · exact hp.1.here h
      · exact hlt '<' (List.mem_cons_of_mem _ (h.subset (by simp))) rfl
    · simp at h
  have hl : (p ++ bl ++ "&".toList).getLast? ≠ some '\\' := by simp
  refine C53_whole_of_parse cc hs _ _ hh hl ((C52_final_newline cc hs _ hh hl _).1 ?_)
  have := (C62_amp hs hp hb (q := []) (by simp) [.mk (.Job L)]).2 ⟨[], (parsesTo_iff (b := ())).2 (prog_blank (.inl rfl)), rfl⟩
  simpa using this

/-! ## Compound commands -/

omit hs in
theorem neat_of {c d : Char} {s t : Str} (h1 : p = c :: s) (h2 : p = t ++ [d]) (hc : c ≠ '\\' ∧ ¬ Blank cc c) (hd : d ≠ '\\' ∧ ¬ Blank cc d)
    (hh : ¬ ['<', '<'] <:+: p) : Neat cc p := by
  refine ⟨?_, ?_, ?_, hh⟩
  · intro x hx; rw [h1] at hx; cases hx; exact hc.2
  · intro h; rw [h1] at h; exact (by have := List.cons_prefix_cons.1 h; exact hc.1 this.1.symm)
  · intro x hx; rw [h2] at hx; simp at hx; rw [← hx]; exact hd

theorem isCommand_of_line {c : SPipeable} (hn : Neat cc p) (h : LineCommand cc p c) : IsCommand cc p c := by
  obtain ⟨l, rfl, -, -, h4⟩ := h []
  rw [lex_line hs] at h4
  obtain ⟨r', ⟨x, -, e1, e2⟩, h5⟩ := h4.nlEnd (c := true) trivial (lex cc p) ⟨lex cc p, hn.plain, rfl, by simp [nlIf]⟩ (by simp [NT.slack])
  obtain rfl : x = [] := by
    have : ([] : List Token) ++ [.Newline] = x ++ [.Newline] := e1
    exact (List.append_cancel_right this).symm
  subst e2
  exact isCommand_iff.2 ⟨hn, h5⟩

theorem op_char {c : Char} (h : c ∈ "(){}".toList) : c ≠ '\\' ∧ ¬ Blank cc c := by
  have h1 : opStart c := by rw [opStart_iff]; revert h; revert c; decide
  refine ⟨by rintro rfl; simp at h, fun hb => ?_⟩
  have := (hs.op c (.inl h1)).2 hb.2
  rw [hb.1] at this
  cases this

theorem letter_char (hl : Latin cc) {c : Char} (h : c ∈ "abcdefghijklmnopqrstuvwxyz".toList) : c ≠ '\\' ∧ ¬ Blank cc c := by
  refine ⟨by rintro rfl; simp at h, fun hb => ?_⟩
  have := hs.word c (by simp [CharClass.nameChar, CharClass.nameStart, hl c h])
  rw [hb.1] at this
  cases this

/-- **C64.** A script in a subshell is a command. -/
theorem C64_subshell {cs : List SCommand} (hp : Whole cc p cs) (hc : cs ≠ []) (hh : ¬ ['<', '<'] <:+: subshellText p) :
    IsCommand cc (subshellText p) (.Compound ⟨.Subshell cs, []⟩) :=
  isCommand_of_line hs (neat_of (c := '(') (d := ')') rfl (t := '(' :: p ++ ['\n']) (by simp [subshellText]) (op_char hs (by decide))
    (op_char hs (by decide)) hh) (line_subshell hs p cs hp hc)

/-- **C64.** So is a script in braces. -/
theorem C64_braces {cs : List SCommand} (hp : Whole cc p cs) (hc : Fits ["}"] cs) (hh : ¬ ['<', '<'] <:+: braceText p) :
    IsCommand cc (braceText p) (.Compound ⟨.Brace cs, []⟩) :=
  isCommand_of_line hs (neat_of (c := '{') (d := '}') rfl (t := "{\n".toList ++ p ++ ['\n']) (by simp [braceText, lines]) (op_char hs (by decide))
    (op_char hs (by decide)) hh) (line_braces hs p cs hp hc)

/-- **C64.** A function whose body is a compound command. -/
theorem C64_function {x : Str} (hx : lex cc x = [.Name x]) (hr : x ∉ reservedWords)
    {c : CompoundCommand (CompoundCommandKind Str SWord SCommand) (Redirect SWord)} (hp : IsCommand cc p (.Compound c))
    (hh : ¬ ['<', '<'] <:+: functionText x p) : IsCommand cc (functionText x p) (.FunctionDef x c) := by
  obtain ⟨h0, h⟩ := isCommand_iff.1 hp
  have hsh : Shape cc (.Name x) := C02_token_shapes cc x _ (by rw [hx]; simp)
  have hn : Neat cc (functionText x p) := by
    obtain ⟨d, s, rfl, h2, h3⟩ := (C53_name_word hs x hx).start
    obtain ⟨t, e, he⟩ := (List.eq_nil_or_concat p).resolve_left (isCommand_ne hp)
    rw [List.concat_eq_append] at he
    exact neat_of (c := d) (d := e) rfl (t := d :: s ++ "()".toList ++ t) (by simp [functionText, he]) ⟨h2, fun hb => by rw [hb.1] at h3; cases h3⟩
      (h0.last _ (by rw [he]; simp)) hh
  refine isCommand_iff.2 ⟨hn, ?_⟩
  have e : functionText x p = x ++ '(' :: ')' :: p := by
    have h : functionText x p = x ++ ['(', ')'] ++ p := rfl
    rw [h]; simp
  rw [e, lex_name' hs hsh ((tail_op (c := '(') (by decide)).notPlain.nameStop hs), open_paren hs,
    show lex cc (')' :: p) = .ParenClose :: lex cc p from lex_end hs .ParenClose _ (by decide) (by decide)]
  obtain ⟨kw, k1, k2⟩ := command_compound h rfl h0.nb
  obtain ⟨f1, f2, f3⟩ := fn_name hs (L := .ParenOpen :: .ParenClose :: lex cc p) hr
  have hnl : Gram.NoLineStart (lex cc p) := by
    intro r
    generalize lex cc p = L at k1
    cases k1 with
    | subshell => simp
    | brace => simp
    | forKw h => rcases h.1 with rfl | rfl <;> simp
    | caseKw h => rcases h.1 with rfl | rfl <;> simp
    | ifKw h => rcases h.1 with rfl | rfl <;> simp
    | whileKw h => rcases h.1 with rfl | rfl <;> simp
    | untilKw h => rcases h.1 with rfl | rfl <;> simp
  exact .commandFunction (.refl (name_nb _ _)) f2 .paren
    (.function (found := false) (.inr ⟨rfl, rfl, f3⟩) (.refl (name_nb _ _)) (.fnParens ⟨_, rfl, .refl (by simp [Gram.NoBlank])⟩)
      (.nil (.refl h0.nb) hnl) k1 k2 rfl)

/-! ## Words that hold scripts -/

/-- **C64.** A text that is a word whatever follows it (a name, a quoted string, a substitution: C53) is a word on its own. -/
theorem C64_text_word {w : Str} {W : SWord} (hw : WholeWord cc w W) (hn : Neat cc w) : IsWord cc w W := by
  have h := wordP_iff.1 (hw.reads ['\n'] (.inr rfl))
  have e0 : lex cc ['\n'] = [.Newline] := by rw [show ['\n'] = [] ++ '\n' :: [] from rfl, lex_line hs, lex_nil]; rfl
  rw [lex_line hs, lex_nil, e0] at h
  obtain ⟨r', ⟨x, -, e1, e2⟩, h5⟩ := h.nlEnd (c := true) trivial (lex cc w) ⟨lex cc w, hn.plain, rfl, by simp [nlIf]⟩ (by simp [NT.slack])
  obtain rfl : x = [] := by
    have : ([] : List Token) ++ [.Newline] = x ++ [.Newline] := e1
    exact (List.append_cancel_right this).symm
  subst e2
  exact isWord_iff.2 ⟨hn, .word h5 (.refl (by simp [Gram.NoBlank, nlIf]))⟩

/-- **C64.** A script in `$(` and `)` is a word: the substitution of its commands. -/
theorem C64_substitution {cs : List SCommand} (hp : Whole cc p cs) (h0 : p.head? ≠ some '(') (hh : ¬ ['<', '<'] <:+: substText p) :
    IsWord cc (substText p) (.mk (.Single (.Simple (.Subst (.Command cs))))) := by
  have hd : ('$' : Char) ≠ '\\' ∧ ¬ Blank cc '$' := by
    refine ⟨by decide, fun hb => ?_⟩
    have := (hs.op '$' (.inl (by rw [opStart_iff]; decide))).2 (by decide)
    rw [hb.1] at this
    cases this
  exact C64_text_word hs (C53_substitution hs p cs hp h0) (neat_of (c := '$') (d := ')') rfl (t := "$(".toList ++ p ++ ['\n']) (by simp [substText])
    hd (op_char hs (by decide)) hh)

omit hs in
theorem lines_end (ps : List Str) (t : Str) (d : Char) : ∃ u, lines (ps ++ [t ++ [d]]) = u ++ [d] := by
  induction ps with
  | nil => exact ⟨t, rfl⟩
  | cons p ps ih =>
    obtain ⟨u, h⟩ := ih
    obtain ⟨x, xs, e⟩ := List.exists_cons_of_ne_nil (l := ps ++ [t ++ [d]]) (by simp)
    refine ⟨p ++ '\n' :: u, ?_⟩
    rw [List.cons_append, e, lines, ← e, h]
    simp

omit hs in
/-- Lines without `<<` in any of them. -/
theorem lines_here (ps : List Str) (h : ∀ p ∈ ps, ¬ ['<', '<'] <:+: p) : ¬ ['<', '<'] <:+: lines ps := by
  match ps, h with
  | [], _ => simp [lines]
  | [p], h => exact h p (by simp)
  | p :: q :: ps, h =>
    intro hh
    rcases infix_cut (by decide) hh with hh | hh
    · exact h p (by simp) hh
    · exact lines_here (q :: ps) (fun x hx => h x (List.mem_cons_of_mem _ hx)) hh

omit hs in
theorem lines_start (c : Char) (s : Str) (ps : List Str) : ∃ u, lines ((c :: s) :: ps) = c :: u := by
  cases ps with
  | nil => exact ⟨_, rfl⟩
  | cons => exact ⟨_, rfl⟩

variable (hl : Latin cc)
include hl

/-- **C64.** So is a loop. -/
theorem C64_loop (k : LoopKind) {cs ds : List SCommand} (hp : Whole cc p cs) (hq : Whole cc q ds)
    (hc : Fits ["do"] cs) (hd : Fits ["done"] ds) (hh : ¬ ['<', '<'] <:+: loopText' k p q) :
    IsCommand cc (loopText' k p q) (.Compound ⟨loopOf k cs ds, []⟩) := by
  refine isCommand_of_line hs ?_ (line_loop hs hl k p q cs ds hp hq hc hd)
  obtain ⟨t, h2⟩ := lines_end [(match k with | .While => "while".toList | .Until => "until".toList), p, "do".toList, q] "don".toList 'e'
  cases k with
  | While =>
    obtain ⟨s, h1⟩ := lines_start 'w' "hile".toList [p, "do".toList, q, "done".toList]
    exact neat_of (c := 'w') (d := 'e') h1 (t := t) (by rw [← h2]; rfl) (letter_char hs hl (by decide)) (letter_char hs hl (by decide)) hh
  | Until =>
    obtain ⟨s, h1⟩ := lines_start 'u' "ntil".toList [p, "do".toList, q, "done".toList]
    exact neat_of (c := 'u') (d := 'e') h1 (t := t) (by rw [← h2]; rfl) (letter_char hs hl (by decide)) (letter_char hs hl (by decide)) hh

omit hs hl in
theorem ifRest_last (as : List (Str × Str)) (e : Option Str) : ∃ us, ifRest as e = us ++ [['f'] ++ ['i']] := by
  induction as with
  | nil =>
    cases e with
    | none => exact ⟨[], rfl⟩
    | some y => exact ⟨["else".toList, y], rfl⟩
  | cons a as ih =>
    obtain ⟨us, h⟩ := ih
    exact ⟨"elif".toList :: a.1 :: "then".toList :: a.2 :: us, by rw [ifRest, h]; rfl⟩

/-- **C64.** So is a conditional. -/
theorem C64_if (a : (Str × Str) × GuardBodyPair SCommand) (as : List ((Str × Str) × GuardBodyPair SCommand))
    (e : Option (Str × List SCommand)) (has : ∀ x ∈ a :: as, ArmOk cc x) (he : ∀ y, e = some y → Whole cc y.1 y.2 ∧ Fits ["fi"] y.2)
    (hh : ¬ ['<', '<'] <:+: ifText a.1.1 a.1.2 (as.map (·.1)) (e.map (·.1))) :
    IsCommand cc (ifText a.1.1 a.1.2 (as.map (·.1)) (e.map (·.1))) (.Compound ⟨.If (a.2 :: as.map (·.2)) (e.map (·.2)), []⟩) := by
  refine isCommand_of_line hs ?_ (line_if hs hl a as e has he)
  obtain ⟨us, hu⟩ := ifRest_last (as.map (·.1)) (e.map (·.1))
  obtain ⟨s, h1⟩ := lines_start 'i' "f".toList (a.1.1 :: "then".toList :: a.1.2 :: ifRest (as.map (·.1)) (e.map (·.1)))
  obtain ⟨t, h2⟩ := lines_end ("if".toList :: a.1.1 :: "then".toList :: a.1.2 :: us) ['f'] 'i'
  exact neat_of (c := 'i') (d := 'i') h1 (t := t) (by rw [← h2, ifText, hu]; rfl) (letter_char hs hl (by decide)) (letter_char hs hl (by decide)) hh

/-- **C64.** So is `for` over the arguments. -/
theorem C64_for_args {x : Str} (hx : lex cc x = [.Name x]) {cs : List SCommand} (hp : Whole cc p cs) (hc : Fits ["done"] cs)
    (hh : ¬ ['<', '<'] <:+: forText x none p) : IsCommand cc (forText x none p) (.Compound ⟨.For x none cs, []⟩) := by
  refine isCommand_of_line hs ?_ (line_for_args hs hl x hx p cs hp hc)
  obtain ⟨s, h1⟩ := lines_start 'f' ("or ".toList ++ x) ["do".toList, p, "done".toList]
  obtain ⟨t, h2⟩ := lines_end ["for ".toList ++ x, "do".toList, p] "don".toList 'e'
  exact neat_of (c := 'f') (d := 'e') h1 (t := t) (by rw [← h2]; rfl) (letter_char hs hl (by decide)) (letter_char hs hl (by decide)) hh

/-- **C64.** So is `for` over words. -/
theorem C64_for {x : Str} (hx : lex cc x = [.Name x]) (ws : List (Str × SWord)) (hw : ∀ w ∈ ws, WholeWord cc w.1 w.2)
    {cs : List SCommand} (hp : Whole cc p cs) (hc : Fits ["done"] cs) (hh : ¬ ['<', '<'] <:+: forText x (some (ws.map (·.1))) p) :
    IsCommand cc (forText x (some (ws.map (·.1))) p) (.Compound ⟨.For x (some (ws.map (·.2))) cs, []⟩) := by
  refine isCommand_of_line hs ?_ (line_for hs hl x hx ws hw p cs hp hc)
  obtain ⟨s, h1⟩ := lines_start 'f' ("or ".toList ++ x ++ " in ".toList ++ wordsText (ws.map (·.1))) ["do".toList, p, "done".toList]
  obtain ⟨t, h2⟩ := lines_end ["for ".toList ++ x ++ " in ".toList ++ wordsText (ws.map (·.1)), "do".toList, p] "don".toList 'e'
  exact neat_of (c := 'f') (d := 'e') h1 (t := t) (by rw [← h2]; rfl) (letter_char hs hl (by decide)) (letter_char hs hl (by decide)) hh

omit hs hl in
theorem armLines_last (as : List (List Str × Str)) : ∃ us, armLines as = us ++ ["esa".toList ++ ['c']] := by
  induction as with
  | nil => exact ⟨[], rfl⟩
  | cons a as ih =>
    obtain ⟨us, h⟩ := ih
    exact ⟨('(' :: patternText a.1) :: a.2 :: ";;".toList :: us, by rw [armLines, h]; rfl⟩

/-- **C64.** So is `case`. -/
theorem C64_case {w : Str} {W : SWord} (hw : WholeWord cc w W) (as : List ((List (Str × SWord)) × Str × List SCommand))
    (has : ∀ a ∈ as, CaseArmOk cc a) (hh : ¬ ['<', '<'] <:+: caseText w (as.map fun a => (a.1.map (·.1), a.2.1))) :
    IsCommand cc (caseText w (as.map fun a => (a.1.map (·.1), a.2.1)))
      (.Compound ⟨.Case W (as.map fun a => ⟨a.1.map (·.2), a.2.2⟩), []⟩) := by
  refine isCommand_of_line hs ?_ (line_case hs hl w W hw as has)
  generalize has' : as.map (fun a => (a.1.map (·.1), a.2.1)) = bs at *
  obtain ⟨us, hu⟩ := armLines_last bs
  obtain ⟨s, h1⟩ := lines_start 'c' ("ase ".toList ++ w ++ " in".toList) (armLines bs)
  obtain ⟨t, h2⟩ := lines_end (("case ".toList ++ w ++ " in".toList) :: us) "esa".toList 'c'
  exact neat_of (c := 'c') (d := 'c') h1 (t := t) (by rw [← h2, caseText, hu]; rfl) (letter_char hs hl (by decide)) (letter_char hs hl (by decide)) hh

end

/-! ## Examples -/

section
variable {cc : CharClass} (hs : cc.Sane) (hl : Latin cc)
include hs hl

/-- **C64.** Any commands, lists and redirections in place of the letters: `while a && b⏎do⏎{⏎c | d⏎} R &⏎done`. -/
theorem C64_nested {a b c d r : Str} {A B C D : SPipeable} {R : Redirect SWord} (ha : IsCommand cc a A) (hb : IsCommand cc b B) (hc : IsCommand cc c C)
    (hd : IsCommand cc d D) (hr : IsRedirect cc r R) (hbang : ∀ x ∈ [a, b, c, d], x.head? ≠ some '!') (hC : ¬ BareFn C)
    (hfa : opens (.mk (.List ⟨.Single A, [.And (.Single B)]⟩)) ≠ some "do".toList) (hfc : opens (.mk (.List ⟨.Pipe false [C, D], []⟩)) ≠ some "}".toList) :
    IsCommand cc (loopText' .While (a ++ " && ".toList ++ b) (braceText (c ++ " | ".toList ++ d) ++ " ".toList ++ r ++ " &".toList))
      (.Compound ⟨.While ⟨[.mk (.List ⟨.Single A, [.And (.Single B)]⟩)],
        [.mk (.Job ⟨.Single (.Compound ⟨.Brace [.mk (.List ⟨.Pipe false [C, D], []⟩)], [R]⟩), []⟩)]⟩, []⟩) := by
  have sb : SomeBlanks cc [' '] := ⟨by simp, by simp [Blank, hs.space]⟩
  have sg : SomeLayout cc [' '] := ⟨by simp, .gap ⟨.blank ⟨hs.space, by decide⟩ .nil, by simp⟩, by decide⟩
  have pa := C62_command_pipeline ha (hbang a (by simp))
  have pb := C62_command_pipeline hb (hbang b (by simp))
  have pc := C62_command_pipeline hc (hbang c (by simp))
  have pd := C62_command_pipeline hd (hbang d (by simp))
  have l1 := C62_and hs (C62_pipeline_list pa) (C62_pipeline_list pb) sb sg
  have l2 : IsList cc (c ++ [' '] ++ "|".toList ++ [' '] ++ d) ⟨.Pipe false [C, D], []⟩ := C62_pipeline_list (C62_pipe hs (n := false) (cs := [C]) (ds := [D]) pc pd (by simpa using hC) sb sg)
  have w1 := C64_line hs l1
  have c1 := C64_braces hs (C64_line hs l2) ⟨by simp, by simpa using hfc⟩
    (lines_here _ (by simp only [List.mem_cons, List.not_mem_nil, or_false]; rintro x (rfl | rfl | rfl); exacts [by decide, l2.1.here, by decide]))
  obtain ⟨u, hu⟩ := lines_end ["{".toList, c ++ [' '] ++ "|".toList ++ [' '] ++ d] [] '}'
  have hu : braceText (c ++ [' '] ++ "|".toList ++ [' '] ++ d) = u ++ ['}'] := hu
  have c2 : IsCommand cc _ (.Compound ⟨.Brace [.mk (.List ⟨.Pipe false [C, D], []⟩)], [R]⟩) :=
    C63_redirect hs c1 (by rw [hu]; simp) (by simp [BareFn]) hr sb
  have l3 := C62_pipeline_list (C62_command_pipeline c2 (by simp [braceText, lines]))
  have w2 := C64_job hs l3 sb
  have hw2 : ¬ ['<', '<'] <:+: braceText (c ++ [' '] ++ "|".toList ++ [' '] ++ d) ++ [' '] ++ r ++ [' '] ++ "&".toList := by
    intro h
    rcases infix_cut (v := []) (c := '&') (by decide) h with h | h
    · rcases infix_cut (v := []) (c := ' ') (by decide) h with h | h
      · exact l3.1.here h
      · simp at h
    · simp at h
  have := C64_loop hs hl .While w1 w2 ⟨by simp, by simpa using hfa⟩ ⟨by simp, by simp [opens, pipeableOpens]⟩
    (lines_here _ (by
      simp only [List.mem_cons, List.not_mem_nil, or_false]
      rintro x (rfl | rfl | rfl | rfl | rfl)
      exacts [by decide, l1.1.here, by decide, hw2, by decide]))
  simpa [loopOf, withRedirect] using this

end

/-- The command that is one plain word. -/
def Spec.plainCommand (x : Str) : SPipeable := .Simple ⟨[], [.CmdWord (.mk (.Single (.Simple (.Literal x))))]⟩

def Spec.bareWord (x : Str) : SWord := .mk (.Single (.Simple (.Literal x)))

def isName (x : Str) : Bool :=
  decide (lex ascii x = [.Name x]) && isNeat x && decide (x.getLast? ≠ some '\n') && decide (x ∉ compoundWords.map String.toList) &&
    decide ('=' ∉ x)

theorem name_command {x : Str} (h : isName x = true) : IsCommand ascii x (plainCommand x) := by
  simp only [isName, Bool.and_eq_true, decide_eq_true_eq] at h
  obtain ⟨⟨⟨⟨hx, h⟩, h1⟩, hk⟩, h2⟩ := h
  refine C64_word ascii_sane (C64_text_word ascii_sane (C53_name_word ascii_sane x hx) (isNeat_sound h)) h1 ?_ ?_
  · rintro k hm rfl
    exact hk (List.mem_map_of_mem hm)
  · rintro ⟨y, s, -, rfl⟩
    simp at h2

/-- A program put together from its parts. -/
example : ∃ R, IsRedirect ascii apR.toList R ∧
    IsCommand ascii (loopText' .While (['a'] ++ " && ".toList ++ ['b']) (braceText (['c'] ++ " | ".toList ++ ['d']) ++ " ".toList ++ apR.toList ++ " &".toList))
      (.Compound ⟨.While ⟨[.mk (.List ⟨.Single (plainCommand ['a']), [.And (.Single (plainCommand ['b']))]⟩)],
        [.mk (.Job ⟨.Single (.Compound ⟨.Brace [.mk (.List ⟨.Pipe false [plainCommand ['c'], plainCommand ['d']], []⟩)], [R]⟩), []⟩)]⟩, []⟩) := by
  obtain ⟨R, hR⟩ := isRedirectText_sound (p := apR) (by decide +kernel)
  generalize apR.toList = r at *
  refine ⟨R, hR, ?_⟩
  exact C64_nested ascii_sane ascii_latin (name_command (x := ['a']) (by decide +kernel)) (name_command (x := ['b']) (by decide +kernel))
    (name_command (x := ['c']) (by decide +kernel)) (name_command (x := ['d']) (by decide +kernel)) hR (by decide)
    (by simp [BareFn, plainCommand]) (by simp [opens, pipeableOpens, plainText, plainCommand]) (by simp [opens, pipeableOpens, plainText, plainCommand])

/-- The commands that hold scripts, with the scripts `a` and `b`. -/
example : ∃ A B X Y, IsCommand ascii (subshellText ['a']) A ∧ IsCommand ascii (ifText ['a'] ['b'] [(['b'], ['a'])] (some ['b'])) B ∧
    IsCommand ascii (functionText ['f'] (caseText ['b'] [([['a'], ['b']], ['a']), ([['b']], ['b'])])) X ∧
    IsCommand ascii (forText ['x'] (some [['a'], ['b']]) ['a']) Y ∧ IsCommand ascii (substText ['a']) (.Simple ⟨[], [.CmdWord (.mk (.Single
      (.Simple (.Subst (.Command [one (plainCommand ['a'])])))))]⟩) := by
  have nm : isName ['a'] = true ∧ isName ['b'] = true ∧ isName ['f'] = true ∧ isName ['x'] = true := by decide +kernel
  have lx : ∀ {x}, isName x = true → lex ascii x = [.Name x] := fun h => by
    simp only [isName, Bool.and_eq_true, decide_eq_true_eq] at h
    exact h.1.1.1.1
  have wa : Whole ascii ['a'] [one (plainCommand ['a'])] :=
    C64_line ascii_sane (C62_pipeline_list (C62_command_pipeline (name_command nm.1) (by decide)))
  have wb : Whole ascii ['b'] [one (plainCommand ['b'])] :=
    C64_line ascii_sane (C62_pipeline_list (C62_command_pipeline (name_command nm.2.1) (by decide)))
  have va := C53_name_word ascii_sane ['a'] (lx nm.1)
  have vb := C53_name_word ascii_sane ['b'] (lx nm.2.1)
  have fit : ∀ (ws : List String) (x : Str), (x ∉ ws.map String.toList) → Fits ws [one (plainCommand x)] := by
    intro ws x h
    refine ⟨by simp, fun c hc w hw e => ?_⟩
    obtain rfl : c = one (plainCommand x) := by simpa using hc
    have e : x = w.toList := by simpa [one, opens, pipeableOpens, plainText, plainCommand] using e
    exact h (e ▸ List.mem_map_of_mem hw)
  have arm : ∀ {p q x y}, Whole ascii p [one (plainCommand x)] → Whole ascii q [one (plainCommand y)] → x ∉ ["then"].map String.toList →
      y ∉ ["elif", "else", "fi"].map String.toList → ArmOk ascii ((p, q), ⟨[one (plainCommand x)], [one (plainCommand y)]⟩) :=
    fun h1 h2 h3 h4 => ⟨h1, fit _ _ h3, h2, fit _ _ h4⟩
  refine ⟨_, _, _, _, C64_subshell ascii_sane wa (by simp) (by decide),
    C64_if ascii_sane ascii_latin [((['b'], ['a']), ⟨[one (plainCommand ['b'])], [one (plainCommand ['a'])]⟩)] (some (['b'], [one (plainCommand ['b'])]))
      (a := ((['a'], ['b']), ⟨[one (plainCommand ['a'])], [one (plainCommand ['b'])]⟩)) ?_ ?_ (by decide),
    C64_function ascii_sane (lx nm.2.2.1) (by decide) (C64_case ascii_sane ascii_latin vb
      [([(['a'], bareWord ['a']), (['b'], bareWord ['b'])], ['a'], [one (plainCommand ['a'])]), ([(['b'], bareWord ['b'])], ['b'], [one (plainCommand ['b'])])] ?_ (by decide)) (by decide),
    C64_for ascii_sane ascii_latin (lx nm.2.2.2) [(['a'], bareWord ['a']), (['b'], bareWord ['b'])] ?_ wa (fit _ _ (by decide)) (by decide),
    C64_word ascii_sane (C64_substitution ascii_sane wa (by decide) (by decide)) (by decide) (by decide) ?_⟩
  · rintro x hx
    simp only [List.mem_cons, List.not_mem_nil, or_false] at hx
    rcases hx with rfl | rfl
    · exact arm wa wb (by decide) (by decide)
    · exact arm wb wa (by decide) (by decide)
  · rintro y e
    cases e
    exact ⟨wb, fit _ _ (by decide)⟩
  · rintro x hx
    simp only [List.mem_cons, List.not_mem_nil, or_false] at hx
    rcases hx with rfl | rfl
    · refine ⟨by simp, ?_, wa, fun c hc => (fit ["esac"] ['a'] (by decide)).2 c hc "esac" (by simp)⟩
      rintro w hw
      simp only [List.mem_cons, List.not_mem_nil, or_false] at hw
      rcases hw with rfl | rfl
      exacts [va, vb]
    · refine ⟨by simp, ?_, wb, fun c hc => (fit ["esac"] ['b'] (by decide)).2 c hc "esac" (by simp)⟩
      rintro w hw
      simp only [List.mem_cons, List.not_mem_nil, or_false] at hw
      rcases hw with rfl
      exact vb
  · rintro w hw
    simp only [List.mem_cons, List.not_mem_nil, or_false] at hw
    rcases hw with rfl | rfl
    exacts [va, vb]
  · rintro ⟨x, s, h1, h2⟩
    cases x with
    | nil => simp [substText] at h2
    | cons c x =>
      have hsh := C02_token_shapes ascii (c :: x) (.Name (c :: x)) (by rw [h1]; simp)
      obtain ⟨d, w, e, hd, -⟩ := hsh
      cases e
      have : c = '$' := by simp [substText] at h2; exact h2.1.symm
      subst this
      rcases hd with hd | hd
      · simp at hd
      · exact absurd hd (by decide +kernel)

def asCommand (p : String) : Option SPipeable := readsAll .command p

theorem asCommand_of {p : String} {c : SPipeable} (h : IsCommand ascii p.toList c) : asCommand p = some c := readsAll_iff.2 h.2

def badWord (k : String) : Bool := isWordText k && (asCommand k).isNone

theorem badWord_spec {k : String} (h : badWord k = true) : ∃ w, IsWord ascii k.toList w ∧ ∀ vs ws, ¬ IsCommand ascii k.toList (.Simple ⟨vs, ws⟩) := by
  simp only [badWord, Bool.and_eq_true] at h
  obtain ⟨w, hw⟩ := isWordText_sound h.1
  refine ⟨w, hw, fun vs ws h1 => ?_⟩
  have h2 := h.2
  rw [asCommand_of h1] at h2
  cases h2

def badAssign (x : String) : Bool := isWordText x && decide (simpleShape x = some (1, 0))

theorem badAssign_spec {x : String} (h : badAssign x = true) : ∃ w, IsWord ascii x.toList w ∧ ¬ IsCommand ascii x.toList (.Simple ⟨[], [.CmdWord w]⟩) := by
  unfold badAssign at h
  rw [Bool.and_eq_true] at h
  obtain ⟨w, hw⟩ := isWordText_sound h.1
  have h2 : simpleShape x = some (1, 0) := of_decide_eq_true h.2
  refine ⟨w, hw, fun h1 => ?_⟩
  have h1 : readsAll .command x = some (.Simple ⟨[], [.CmdWord w]⟩) := readsAll_iff.2 h1.2
  have h3 : simpleShape x = some (0, 1) := by unfold simpleShape; rw [h1]; rfl
  rw [h3] at h2
  exact absurd h2 (by decide)

/-- The words that start compound commands are not commands, and an assignment is a command that has no word. -/
theorem C64_conditions_needed :
    (∀ k ∈ compoundWords, ∃ w, IsWord ascii k.toList w ∧ ∀ vs ws, ¬ IsCommand ascii k.toList (.Simple ⟨vs, ws⟩)) ∧
    (∃ w, IsWord ascii "x=1".toList w ∧ ¬ IsCommand ascii "x=1".toList (.Simple ⟨[], [.CmdWord w]⟩)) := by
  have k1 : compoundWords.all badWord = true := by decide +kernel
  have k2 : badAssign "x=1" = true := by decide +kernel
  exact And.intro (fun k hk => badWord_spec (List.all_eq_true.1 k1 k hk)) (badAssign_spec k2)

end Conch
