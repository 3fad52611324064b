import Verif.RoundWord
/-!
# Reading words, redirections and simple commands (C39)
-/
namespace Conch
open Spec Gram

section
variable {cc : CharClass}

abbrev NB (cc : CharClass) (rest : Str) : Prop := Gram.NoBlank (lex cc rest)

theorem nb_op (hs : cc.Sane) {c : Char} (hc : opStart c) (r : Str) : NB cc (c :: r) := by
  refine noBlank_text ?_ ?_
  · by_cases h : c = '\n'
    · exact .inr h
    · exact .inl ((hs.op c (.inl hc)).2 h)
  · rintro rfl
    exact absurd hc (by rw [opStart_iff]; decide)

/-- What follows a word without making it longer. -/
theorem edge_space (rest : Str) : Edge (' ' :: rest) := ⟨_, _, rfl, by decide⟩

/-- A word starts without a blank. -/
theorem word_nb (hs : cc.Sane) {w : Syn .parts} (hn : w.isNil = false) (hw : w.Ok cc false) (rest : Str) :
    NB cc (w.text ++ rest) := by
  cases w with
  | nil => cases hn
  | lit s r =>
    rw [Ok_lit] at hw
    obtain ⟨c, s, rfl⟩ := List.exists_cons_of_ne_nil hw.1.1
    have h := litChar_not_meta hs (hw.1.2 c (by simp))
    exact noBlank_text (.inl h.2.1) (fun e => absurd e h.1)
  | esc c r =>
    rw [Ok_esc] at hw
    refine noBlank_text (.inl ((hs.op _ (.inr rfl)).2 (by decide))) ?_
    rintro - r' e
    injection e with e _
    exact hw.1 e
  | glob g r => exact nb_op hs (by rw [opStart_iff]; cases g <;> decide) _
  | single s r => exact nb_op hs (by rw [opStart_iff]; decide) _
  | double d r => exact nb_op hs (by rw [opStart_iff]; decide) _
  | exp e r =>
    obtain ⟨x, hx⟩ := exp_text e
    rw [text_exp, hx]
    exact nb_op hs (by rw [opStart_iff]; decide) _

theorem lex_sp (hs : cc.Sane) {rest : Str} (h : NB cc rest) : lex cc (' ' :: rest) = wsp :: lex cc rest :=
  lex_space hs h

/-- A word and the blank after it. -/
theorem word_raw (hs : cc.Sane) {w : Syn .parts} (hw : w.IsWord) (ho : w.Ok cc false) (ih : PartsClaim cc w) {rest : Str}
    (hb : NB cc rest) :
    ∃ k, RD (.rawWord none) (lex cc (w.text ++ ' ' :: rest)) (some k) (wsp :: lex cc rest) ∧
      stringCore.word k = wordAst w.ast := by
  obtain ⟨ks, h1, h2, h3, h4, -⟩ := ih (' ' :: rest) (edge_space rest)
  have hks : ks ≠ [] := fun e => by have := h4.1 e; rw [hw.1] at this; cases this
  refine ⟨wordWith ks, ?_, by rw [word_of hks h3, h2]⟩
  rw [lex_sp hs hb] at h1
  have := Reads.someWord (B := DefaultBuilder) (d := none) (.refl (word_nb hs hw.1 ho _))
    (first_not hs w ho _ (edge_space rest) hw.1 (t := .Pound) rfl (by decide) hw.2)
    (h1.pieces (by rintro _ _ e; cases e; rfl))
  rwa [wordOf_eq hks] at this

theorem calls_word {k : ComplexWordKind CK} {w} (h : stringCore.word k = w) :
    Gram.Calls (B := DefaultBuilder) (.word k) () w () := by subst h; rfl

theorem word_read (hs : cc.Sane) {w : Syn .parts} (hw : w.IsWord) (ho : w.Ok cc false) (ih : PartsClaim cc w) {rest : Str}
    (hb : NB cc rest) : RD .word (lex cc (w.text ++ ' ' :: rest)) (some (wordAst w.ast)) (lex cc rest) := by
  obtain ⟨k, h1, h2⟩ := word_raw hs hw ho ih hb
  exact .word (.wordPSome h1 (calls_word h2)) (skip_blank (.refl hb))

/-- A word where a redirection might be. -/
theorem word_redirect (hs : cc.Sane) {w : Syn .parts} (hw : w.IsWord) (ho : w.Ok cc false) (ih : PartsClaim cc w) {rest : Str}
    (hb : NB cc rest) : RD .redirect (lex cc (w.text ++ ' ' :: rest)) (some (.inr (wordAst w.ast))) (wsp :: lex cc rest) := by
  obtain ⟨k, h1, h2⟩ := word_raw hs hw ho ih hb
  refine .redirectWord h1 ?_ (calls_word h2)
  rintro - t r e
  cases e
  simp [redirOps]

/-! ## Redirections -/

/-- The tokens a redirection starts with. -/
def RStart (l : List Token) : Prop :=
  ∃ t l', (l = t :: l' ∨ ∃ n, l = .Literal (natDigits n) :: t :: l') ∧ t ∈ redirOps

variable (cc) in
/-- Claim about a redirection. -/
def RedirClaim (a : Syn .redir) : Prop :=
  ∀ rest, NB cc rest → RD .redirect (lex cc (a.text ++ rest)) (some (.inl a.ast)) (wsp :: lex cc rest) ∧
    RStart (lex cc (a.text ++ rest))

theorem RStart.nb {l} (h : RStart l) : Gram.NoBlank l := by
  obtain ⟨t, l', rfl | ⟨n, rfl⟩, ht⟩ := h
  · exact noBlank_op ht l'
  · simp [Gram.NoBlank]

/-- A redirection with a descriptor, or not. -/
theorem redir_fd (hs : cc.Sane) {fd : Option Nat} (hfd : ∀ n, fd = some n → n ≤ 65535) {t : Token} (ht : t ∈ redirOps)
    (hop : (t.asStr, t) ∈ operators) {s : Str} {l r : List Token} {a}
    (hl : lex cc (t.asStr ++ s) = t :: l) (h : RD (.redirTail fd) (t :: l) a r) :
    RD .redirect (lex cc (fdOptText fd ++ (t.asStr ++ s))) (some (.inl a)) r ∧
      RStart (lex cc (fdOptText fd ++ (t.asStr ++ s))) := by
  cases fd with
  | none =>
    have : fdOptText none ++ (t.asStr ++ s) = t.asStr ++ s := rfl
    rw [this, hl]
    exact ⟨.redirect (noWord_op (B := DefaultBuilder) (bs := []) .nil ht l ()) ht h, _, _, .inl rfl, ht⟩
  | some n =>
    have : fdOptText (some n) ++ (t.asStr ++ s) = natDigits n ++ (t.asStr ++ s) := rfl
    rw [this, lex_digits cc hs n (fun c => head_opStart hop _ c), hl]
    have hu := fdToks_digits (hfd n rfl)
    exact ⟨.redirectFd (plain_word (B := DefaultBuilder) (bs := []) (u := [.Literal (natDigits n)]) .nil hu.ne hu.1 hu.head
      (endsWord_op ht l) ()) (hu.fdWord _) ht h, _, _, .inr ⟨_, rfl⟩, ht⟩

theorem calls_redirect {k : RedirectKind (TopLevelWord Str)} {a} (h : Core.mapRedirect k = a) :
    Gram.Calls (B := DefaultBuilder) (.redirect k) () a () := by subst h; rfl

theorem op_space {t : Token} (ht : t ∈ redirOps) : (t.asStr, t) ∈ operators ∧ ∀ p ∈ operators, ¬ t.asStr ++ [' '] <+: p.1 := by
  revert t; decide

theorem redir_file (hs : cc.Sane) {fd : Option Nat} {op : FileOp} {w : Syn .parts} (hfd : ∀ n, fd = some n → n ≤ 65535)
    (hw : w.IsWord) (ho : w.Ok cc false) (ih : PartsClaim cc w) : RedirClaim cc (.file fd op w) := by
  intro rest hb
  obtain ⟨k, h1, h2⟩ := word_raw hs hw ho ih hb
  have hnb := word_nb hs hw.1 ho (' ' :: rest)
  have key : ∀ (t : Token) (mk : Option Nat → TopLevelWord Str → RedirectKind (TopLevelWord Str)),
      (t, mk) ∈ pathOps (TopLevelWord Str) → t ∈ redirOps →
      t.asStr = op.text → (∀ x, Core.mapRedirect (mk fd x) = op.ast fd x) →
      RD .redirect (lex cc ((Syn.file fd op w).text ++ rest)) (some (.inl (Syn.file fd op w).ast)) (wsp :: lex cc rest) ∧
        RStart (lex cc ((Syn.file fd op w).text ++ rest)) := by
    intro t mk hm ht he hk
    have e : (Syn.file fd op w).text ++ rest = fdOptText fd ++ (t.asStr ++ ' ' :: (w.text ++ ' ' :: rest)) := by
      rw [text_file, he]; simp
    rw [e]
    refine redir_fd hs hfd ht (op_space ht).1 (l := wsp :: lex cc (w.text ++ ' ' :: rest)) ?_ ?_
    · rw [lex_token hs t ' ' _ (op_space ht).1 (op_space ht).2, lex_sp hs hnb]
    · exact .redirPath hm (skip_blank (.refl hnb)) h1 (calls_word h2) (calls_redirect (hk _))
  cases op
  · exact key .Less .Read (by simp [pathOps]) (by decide) rfl (fun _ => rfl)
  · exact key .Great .Write (by simp [pathOps]) (by decide) rfl (fun _ => rfl)
  · exact key .LessGreat .ReadWrite (by simp [pathOps]) (by decide) rfl (fun _ => rfl)
  · exact key .DGreat .Append (by simp [pathOps]) (by decide) rfl (fun _ => rfl)
  · exact key .Clobber .Clobber (by simp [pathOps]) (by decide) rfl (fun _ => rfl)

theorem lit_wordAst (s : Str) : stringCore.word (.Single (.Simple (.Literal s))) = litAst s := rfl

theorem redir_dup (hs : cc.Sane) {fd : Option Nat} {op : DupOp} {n : Nat} (hfd : ∀ n, fd = some n → n ≤ 65535) :
    RedirClaim cc (.dup fd op n) := by
  intro rest hb
  have hnd : opStart ' ' ∨ cc.whitespace ' ' = true := .inr hs.space
  have hlx : lex cc (natDigits n ++ ' ' :: rest) = .Literal (natDigits n) :: wsp :: lex cc rest := by
    rw [← lex_sp hs hb]
    refine lex_cons hs (t := .Literal (natDigits n)) (lit_shape hs n) (by simp) fun c hc hp => ?_
    cases hc
    have := hp.2.2
    rw [hs.space] at this; cases this
  have hnb : NB cc (natDigits n ++ ' ' :: rest) := by rw [NB, hlx]; simp [Gram.NoBlank]
  have key : ∀ (t : Token) (mk : Option Nat → TopLevelWord Str → RedirectKind (TopLevelWord Str)),
      (t, mk) ∈ dupOps (TopLevelWord Str) → t ∈ redirOps →
      t.asStr = op.text → (∀ x, Core.mapRedirect (mk fd x) = op.ast fd x) →
      RD .redirect (lex cc ((Syn.dup fd op n).text ++ rest)) (some (.inl (Syn.dup fd op n).ast)) (wsp :: lex cc rest) ∧
        RStart (lex cc ((Syn.dup fd op n).text ++ rest)) := by
    intro t mk hm ht he hk
    have e : (Syn.dup fd op n).text ++ rest = fdOptText fd ++ (t.asStr ++ ' ' :: (natDigits n ++ ' ' :: rest)) := by
      rw [text_dup, he]; simp
    rw [e]
    refine redir_fd hs hfd ht (op_space ht).1 (l := wsp :: lex cc (natDigits n ++ ' ' :: rest)) ?_ ?_
    · rw [lex_token hs t ' ' _ (op_space ht).1 (op_space ht).2, lex_sp hs hnb]
    · have hraw : RD (.rawWord none) (lex cc (natDigits n ++ ' ' :: rest)) (some (.Single (.Simple (.Literal (natDigits n)))))
          (wsp :: lex cc rest) := by
        rw [hlx]
        exact plain_word (B := DefaultBuilder) (bs := []) (u := [.Literal (natDigits n)]) .nil (by simp)
          (by simp [PlainToken]) (by simp) (by rintro _ _ e; cases e; rfl) ()
      refine .redirDup hm (skip_blank (.refl hnb)) ?_ hraw ?_ (calls_word (lit_wordAst _)) (calls_redirect (hk _))
      · rw [hlx]; rintro r e; cases e
      · refine .single (.simple (.literal fun c hc => ?_))
        have := natDigits_isDigit hc
        simp only [isDigit, Bool.and_eq_true, decide_eq_true_eq] at this
        have h3 : 48 ≤ c.toNat ∧ c.toNat ≤ 57 := this
        have h4 : ∀ m, m ≤ 57 → 48 ≤ m → Char.ofNat m ∈ "0123456789".toList := by decide
        have := h4 c.toNat h3.2 h3.1
        rwa [Char.ofNat_toNat] at this
  cases op
  · exact key .LessAnd .DupRead (by simp [dupOps]) (by decide) rfl (fun _ => rfl)
  · exact key .GreatAnd .DupWrite (by simp [dupOps]) (by decide) rfl (fun _ => rfl)

theorem redir_close (hs : cc.Sane) {fd : Option Nat} {op : DupOp} (hfd : ∀ n, fd = some n → n ≤ 65535) :
    RedirClaim cc (.close fd op) := by
  intro rest hb
  have hlx : lex cc ('-' :: ' ' :: rest) = .Dash :: wsp :: lex cc rest := by
    rw [← lex_sp hs hb]
    exact lex_end hs .Dash (' ' :: rest) (by decide) (by decide)
  have hnb : NB cc ('-' :: ' ' :: rest) := by rw [NB, hlx]; simp [Gram.NoBlank]
  have key : ∀ (t : Token) (mk : Option Nat → TopLevelWord Str → RedirectKind (TopLevelWord Str)),
      (t, mk) ∈ dupOps (TopLevelWord Str) → t ∈ redirOps →
      t.asStr = op.text → (∀ x, Core.mapRedirect (mk fd x) = op.ast fd x) →
      RD .redirect (lex cc ((Syn.close fd op).text ++ rest)) (some (.inl (Syn.close fd op).ast)) (wsp :: lex cc rest) ∧
        RStart (lex cc ((Syn.close fd op).text ++ rest)) := by
    intro t mk hm ht he hk
    have e : (Syn.close fd op).text ++ rest = fdOptText fd ++ (t.asStr ++ ' ' :: ('-' :: ' ' :: rest)) := by
      rw [text_close, he]; simp
    rw [e]
    refine redir_fd hs hfd ht (op_space ht).1 (l := wsp :: lex cc ('-' :: ' ' :: rest)) ?_ ?_
    · rw [lex_token hs t ' ' _ (op_space ht).1 (op_space ht).2, lex_sp hs hnb]
    · rw [hlx]
      exact .redirDupDash hm (skip_blank (.refl (by simp [Gram.NoBlank]))) (by rintro _ _ e; cases e; rfl) (calls_word (lit_wordAst _)) (calls_redirect (hk _))
  cases op
  · exact key .LessAnd .DupRead (by simp [dupOps]) (by decide) rfl (fun _ => rfl)
  · exact key .GreatAnd .DupWrite (by simp [dupOps]) (by decide) rfl (fun _ => rfl)

/-! ## What follows a command -/

/-- The end of a command. -/
def StopText (rest : Str) : Prop := ∃ c r, rest = c :: r ∧ c ∈ "\n&|".toList

theorem StopText.ender {rest : Str} (h : StopText rest) : ∀ c, rest.head? = some c → c ∈ "\n;&|()".toList := by
  obtain ⟨c, r, rfl, hc⟩ := h
  intro d hd; cases hd
  revert c; decide

theorem stop_nb (hs : cc.Sane) {rest : Str} (h : StopText rest) : NB cc rest := (ender_reads hs h.ender).1

theorem stop_tokens (_hs : cc.Sane) {rest : Str} (h : StopText rest) :
    ∃ t r, lex cc rest = t :: r ∧ t ∈ [Token.Newline, .Amp, .AndIf, .Pipe, .OrIf] := by
  obtain ⟨c, r, rfl, hc⟩ := h
  have hops : ∀ p ∈ operators, ∀ c ∈ "\n&|".toList, p.1.head? = some c →
      p.2 ∈ [Token.Newline, .Amp, .AndIf, .Pipe, .OrIf] := by decide
  have hst : ∀ c ∈ "\n&|".toList, c ≠ '\\' ∧ (c ∈ ['\n', '!', '~', '#', '*', '?', '%', '-', '=', '+', ':', '@', '^', '/', ',',
      '\'', '"', '`', '(', ')', '{', '}', '[', ']'] ∨ c ∈ [';', '&', '|', '<', '>', '$']) := by decide
  have ho := opStart_iff.2 (hst c hc).2
  rcases lexes_cons_inv (lex_lexes cc (c :: r)) with ⟨rfl, -⟩ | ⟨_, _, _, _, rfl, -⟩ |
      ⟨o, s, t, ts, h1, h2, h3, h4, -⟩ | ⟨_, _, _, -, h1, -⟩ | ⟨_, _, _, h1, -⟩ | ⟨_, _, _, h1, -⟩
  · exact absurd rfl (hst _ hc).1
  · exact absurd rfl (hst _ hc).1
  · have hh : o.head? = some c := by
      obtain ⟨d, ds, r, rfl, -, h⟩ := longestOp_head h4
      cases h; rfl
    exact ⟨t, ts, h3, hops _ h4.1 c hc hh⟩
  · exact absurd ho h1
  · exact absurd ho h1.2.1
  · exact absurd ho h1.2.1

theorem redirects_blank {B : Builder} {w : Str} {b b' : B.State} {l r : List Token} {k}
    (h : Reads .redirects b l k r b') : Reads .redirects b (.Whitespace w :: l) k r b' := by
  cases h with
  | redirectsNil h1 h2 => exact .redirectsNil (skip_blank h1) h2
  | redirectsCons h1 h2 h3 => exact .redirectsCons (skip_blank h1) h2 h3

variable (cc) in
def RedirsClaim (io : Syn .redirs) : Prop :=
  ∀ rest, StopText rest → RD .redirects (lex cc (io.text ++ rest)) io.ast (lex cc rest) ∧ NB cc (io.text ++ rest)

theorem redirs_nil (hs : cc.Sane) : RedirsClaim cc .rnil := by
  intro rest hr
  obtain ⟨h1, -, h3⟩ := ender_reads hs hr.ender
  exact ⟨.redirectsNil (.refl h1) h3, h1⟩

theorem redirs_cons {a : Syn .redir} {io : Syn .redirs} (ha : RedirClaim cc a) (ih : RedirsClaim cc io) :
    RedirsClaim cc (.rcons a io) := by
  intro rest hr
  obtain ⟨h1, h2⟩ := ih rest hr
  obtain ⟨h3, h4⟩ := ha _ h2
  have : (Syn.rcons a io).text ++ rest = a.text ++ (io.text ++ rest) := by rw [text_rcons]; simp
  rw [NB, this]
  exact ⟨.redirectsCons (.refl h4.nb) h3 (redirects_blank h1), h4.nb⟩

variable (cc) in
/-- Claim about what follows the command word. -/
def ArgsClaim (as : Syn .args) : Prop :=
  ∀ rest, StopText rest → RD .args (lex cc (as.text ++ rest)) as.ast (lex cc rest) ∧ NB cc (as.text ++ rest) ∧
    ∀ l, lex cc (as.text ++ rest) ≠ .ParenOpen :: l

theorem args_nil (hs : cc.Sane) : ArgsClaim cc .anil := by
  intro rest hr
  obtain ⟨h1, -, h3⟩ := ender_reads hs hr.ender
  refine ⟨.argsEnd h3, h1, fun l e => ?_⟩
  obtain ⟨t, r, h, ht⟩ := stop_tokens hs hr
  have e' : lex cc (Syn.anil.text ++ rest) = lex cc rest := rfl
  rw [e', h] at e
  cases e
  simp at ht

/-- The first token of a word is no operator. -/
theorem word_first_not (hs : cc.Sane) {w : Syn .parts} (hn : w.isNil = false) (ho : w.Ok cc false) (rest : Str) :
    ∃ t l, lex cc (w.text ++ ' ' :: rest) = t :: l ∧ t.isWordDelimiter = false ∧ t ≠ .CurlyOpen ∧ t ≠ .CurlyClose := by
  obtain ⟨t, l, h1, h2⟩ := parts_first hs w ho _ (edge_space rest) hn
  refine ⟨t, l, h1, ?_⟩
  rcases h2 with ⟨s, r, -, h2, -⟩ | ⟨-, h2⟩
  · exact ⟨h2.ne.2.1, h2.ne.2.2.2.1, h2.ne.1⟩
  · clear h1; revert t; decide

theorem args_word (hs : cc.Sane) {w : Syn .parts} {as : Syn .args} (hw : w.IsWord) (ho : w.Ok cc false)
    (hp : PartsClaim cc w) (ih : ArgsClaim cc as) : ArgsClaim cc (.aword w as) := by
  intro rest hr
  obtain ⟨h1, h2, -⟩ := ih rest hr
  have e : (Syn.aword w as).text ++ rest = w.text ++ ' ' :: (as.text ++ rest) := by rw [text_aword]; simp
  rw [NB, e]
  refine ⟨.argsWord (word_redirect hs hw ho hp h2) (args_blank h1), word_nb hs hw.1 ho _, fun l e => ?_⟩
  obtain ⟨t, l', h3, h4, -⟩ := word_first_not hs hw.1 ho (as.text ++ rest)
  rw [h3] at e
  cases e
  cases h4

theorem args_redir {a : Syn .redir} {as : Syn .args} (ha : RedirClaim cc a) (ih : ArgsClaim cc as) :
    ArgsClaim cc (.aredir a as) := by
  intro rest hr
  obtain ⟨h1, h2, -⟩ := ih rest hr
  obtain ⟨h3, h4⟩ := ha _ h2
  have e : (Syn.aredir a as).text ++ rest = a.text ++ (as.text ++ rest) := by rw [text_aredir]; simp
  rw [NB, e]
  refine ⟨.argsRedirect h3 (args_blank h1), h4.nb, fun l e => ?_⟩
  obtain ⟨t, l', h | ⟨n, h⟩, ht⟩ := h4
  · rw [h] at e; cases e; revert ht; decide
  · rw [h] at e; cases e

theorem RStart.notAssign {l} (h : RStart l) : ¬ AssignStart l := by
  rintro ⟨x, r, rfl⟩
  obtain ⟨t, l', h | ⟨n, h⟩, ht⟩ := h
  · cases h; simp [redirOps] at ht
  · cases h

variable (cc) in
/-- Claim about what precedes the command word. -/
def PresClaim (p : Syn .pres) : Prop :=
  ∀ rest, NB cc rest → NB cc (p.text ++ rest) ∧ ∀ e r, RD .assigns (lex cc rest) ([], e) r →
    RD .assigns (lex cc (p.text ++ rest)) (p.ast, e) r

theorem pres_nil : PresClaim cc .pnil := fun _ hr => ⟨hr, fun _ _ h => h⟩

theorem opt_isNil {w : Syn .parts} (h : w.isNil = false) : optAst w.ast = some (wordAst w.ast) := by
  cases w <;> first | rfl | cases h

theorem pres_assign (hs : cc.Sane) {x : Str} {w : Syn .parts} {p : Syn .pres} (hx : Shape cc (.Name x))
    (hf : w.firstChar ≠ some '#') (ho : w.Ok cc false)
    (hp : PartsClaim cc w) (ih : PresClaim cc p) : PresClaim cc (.passign x w p) := by
  intro rest hr
  obtain ⟨h1, h2⟩ := ih rest hr
  have e : (Syn.passign x w p).text ++ rest = x ++ '=' :: (w.text ++ ' ' :: (p.text ++ rest)) := by
    rw [text_passign]; simp
  rw [NB, e, lex_assign hs hx]
  refine ⟨by simp [Gram.NoBlank], fun e r h => ?_⟩
  have h3 := h2 e r h
  by_cases hn : w.isNil = true
  · have : w = .nil := by cases w <;> first | rfl | cases hn
    subst this
    have : Syn.nil.text ++ ' ' :: (p.text ++ rest) = ' ' :: (p.text ++ rest) := rfl
    rw [this, lex_sp hs h1]
    exact .assignEmpty (.refl (by simp [Gram.NoBlank])) (assigns_blank h3)
  · have hn : w.isNil = false := by simpa using hn
    have ea : (Syn.passign x w p).ast = .EnvVar x (some (wordAst w.ast)) :: p.ast := by
      rw [ast_passign, opt_isNil hn]
    rw [ea]
    refine .assign (.refl (by simp [Gram.NoBlank])) (fun v l2 e => ?_) (word_read hs ⟨hn, hf⟩ ho hp h1) h3
    have := word_nb hs hn ho (' ' :: (p.text ++ rest))
    rw [NB, e] at this
    exact this.1 _ _ rfl

theorem pres_redir {a : Syn .redir} {p : Syn .pres} (ha : RedirClaim cc a) (ih : PresClaim cc p) :
    PresClaim cc (.predir a p) := by
  intro rest hr
  obtain ⟨h1, h2⟩ := ih rest hr
  obtain ⟨h3, h4⟩ := ha _ h1
  have e : (Syn.predir a p).text ++ rest = a.text ++ (p.text ++ rest) := by rw [text_predir]; simp
  rw [NB, e]
  refine ⟨h4.nb, fun e r h => ?_⟩
  exact .assignsRedirect (.refl h4.nb) h4.notAssign h3 (assigns_blank (h2 e r h))

end
end Conch
