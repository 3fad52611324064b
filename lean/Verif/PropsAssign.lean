import Verif.PropsRedirect
import Verif.PropsDefault
/-!
# C35: assignments
-/
namespace Conch
open Spec Gram

/-! ## Text of simple commands -/

/-- A redirection to a quoted path. -/
structure Spec.RedirText where
  fd : Option Nat
  op : String × Token × (Option Nat → TopLevelWord Str → Redirect (TopLevelWord Str))
  path : Str

/-- What can stand before the command word. -/
inductive Spec.PreItem
  | assign (x : Str) (v : Option Str)
  | redirect (r : RedirText)

/-- What can follow the command word. -/
inductive Spec.ArgItem
  | word (s : Str)
  | assign (x v : Str)
  | redirect (r : RedirText)

def Spec.RedirText.text (r : RedirText) : Str :=
  r.fd.elim [] natDigits ++ (r.op.1.toList ++ shellQuote r.path)

/-- `x=` or `x='v'`. -/
def Spec.PreItem.text : PreItem → Str
  | .assign x none => x ++ ['=']
  | .assign x (some v) => x ++ '=' :: shellQuote v
  | .redirect r => r.text

def Spec.ArgItem.text : ArgItem → Str
  | .word s => shellQuote s
  | .assign x v => x ++ '=' :: shellQuote v
  | .redirect r => r.text

/-- Every item is followed by a blank. -/
def Spec.preText (l : List PreItem) : Str := l.flatMap fun i => i.text ++ [' ']
def Spec.argText (l : List ArgItem) : Str := l.flatMap fun i => i.text ++ [' ']

def Spec.RedirText.Ok (r : RedirText) : Prop := (∀ n, r.fd = some n → n ≤ 65535) ∧ r.op ∈ pathRedirects
def Spec.PreItem.Ok (cc : CharClass) : PreItem → Prop
  | .assign x _ => Shape cc (.Name x)
  | .redirect r => r.Ok
def Spec.ArgItem.Ok (cc : CharClass) : ArgItem → Prop
  | .word _ => True
  | .assign x _ => Shape cc (.Name x)
  | .redirect r => r.Ok

/-- The tree of the redirection. -/
def Spec.RedirText.Is (r : RedirText) (a : Redirect (TopLevelWord Str)) : Prop :=
  ∃ w, a = r.op.2.2 r.fd w ∧ quotedText w = some r.path

/-- The literal text a word starts with, and the quoted text after it. -/
def Spec.literalThenQuoted : TopLevelWord Str → Option (Str × Str)
  | .mk (.Concat (.Simple (.Literal s) :: ws)) => ((ws.mapM quotedPart).map List.flatten).map (s, ·)
  | _ => none

/-- The entry of the tree for the item. -/
inductive Spec.PreItem.Is : PreItem → RedirectOrEnvVar (Redirect (TopLevelWord Str)) Str (TopLevelWord Str) → Prop
  | assignNone {x} : Is (.assign x none) (.EnvVar x none)
  | assignSome {x v w} : quotedText w = some v → Is (.assign x (some v)) (.EnvVar x (some w))
  | redirect {r a} : RedirText.Is r a → Is (.redirect r) (.Redirect a)

inductive Spec.ArgItem.Is : ArgItem → RedirectOrCmdWord (Redirect (TopLevelWord Str)) (TopLevelWord Str) → Prop
  | word {s w} : quotedText w = some s → Is (.word s) (.CmdWord w)
  /-- the name and `=` are ordinary text -/
  | assign {x v w} : literalThenQuoted w = some (x ++ ['='], v) → Is (.assign x v) (.CmdWord w)
  | redirect {r a} : RedirText.Is r a → Is (.redirect r) (.Redirect a)

section
variable {cc : CharClass}

/-! ## Tokens -/

theorem lex_space (hs : cc.Sane) {s : Str} (h : Gram.NoBlank (lex cc s)) :
    lex cc (' ' :: s) = .Whitespace [' '] :: lex cc s := by
  refine lex_cons hs (t := .Whitespace [' ']) (s := s)
    ⟨by simp, by intro d hd; rw [List.mem_singleton] at hd; subst hd; exact ⟨hs.space, by decide⟩⟩ (by simp) ?_
  rintro c hc ⟨hw, hn⟩
  cases s with
  | nil => cases hc
  | cons d s =>
    cases hc
    rcases lexes_cons_inv (lex_lexes cc (c :: s)) with ⟨rfl, -⟩ | ⟨_, _, _, _, rfl, -⟩ |
      ⟨_, _, _, _, h1, -⟩ | ⟨_, _, _, -, -, -, -, h3, -⟩ | ⟨_, _, _, h1, -⟩ | ⟨_, _, _, h1, -⟩
    · rw [(hs.op _ (.inr rfl)).2 hn] at hw; cases hw
    · rw [(hs.op _ (.inr rfl)).2 hn] at hw; cases hw
    · rw [(hs.op _ (.inl h1)).2 hn] at hw; cases hw
    · rw [h3] at h; simp [Gram.NoBlank] at h
    · rw [h1.2.2] at hw; cases hw
    · rw [h1.2.2] at hw; cases hw

theorem equals_ends : ∀ p ∈ operators, p.1.head? = some '=' → p.1 = ['='] := by decide

theorem lex_assign (hs : cc.Sane) {x : Str} (hx : Shape cc (.Name x)) (s : Str) :
    lex cc (x ++ '=' :: s) = .Name x :: .Equals :: lex cc s := by
  have h1 : lex cc ('=' :: s) = .Equals :: lex cc s := by
    refine lex_op cc hs (t := .Equals) (by decide) (by simp) fun c hc p hp hpre => ?_
    have hh : p.1.head? = some '=' := by
      obtain ⟨y, hy⟩ := hpre; rw [← hy]; rfl
    have := equals_ends p hp hh
    rw [this] at hpre
    exact absurd hpre.length_le (by simp [Token.asStr])
  have h2 : lex cc (x ++ '=' :: s) = .Name x :: lex cc ('=' :: s) := by
    refine lex_cons hs (t := .Name x) hx (by simp) fun c hc => ?_
    simp only [List.head?_cons, Option.some.injEq] at hc
    subst hc
    show cc.nameChar '=' = false
    have := (hs.op '=' (.inl (opStart_iff.2 (by decide)))).1
    simp only [CharClass.nameChar, CharClass.nameStart, this]
    decide
  rw [h2, h1]

variable {B : Builder}

/-! ## A leading blank changes nothing -/

theorem skip_blank {w : Str} {l r : List Token} (h : Gram.Skip l r) : Gram.Skip (.Whitespace w :: l) r := by
  obtain ⟨bs, rfl, h1, h2⟩ := h
  exact ⟨.Whitespace w :: bs, rfl, .ws h1, h2⟩

theorem rawWord_blank {w : Str} {b b' : B.State} {l r : List Token} {k}
    (h : Reads (.rawWord none) b l k r b') : Reads (.rawWord none) b (.Whitespace w :: l) k r b' := by
  cases h with
  | noWord h => exact .noWord (skip_blank h)
  | someWord h1 h2 h3 => exact .someWord (skip_blank h1) h2 h3

theorem redirect_blank {w : Str} {b b' : B.State} {l r : List Token} {k}
    (h : Reads .redirect b l k r b') : Reads .redirect b (.Whitespace w :: l) k r b' := by
  cases h with
  | redirect h1 h2 h3 => exact .redirect (rawWord_blank h1) h2 h3
  | redirectFd h1 h2 h3 h4 => exact .redirectFd (rawWord_blank h1) h2 h3 h4
  | redirectWord h1 h2 h3 => exact .redirectWord (rawWord_blank h1) h2 h3
  | noRedirect h1 h2 => exact .noRedirect (rawWord_blank h1) h2

theorem args_blank {w : Str} {b b' : B.State} {l r : List Token} {k}
    (h : Reads .args b l k r b') : Reads .args b (.Whitespace w :: l) k r b' := by
  cases h with
  | argsRedirect h1 h2 => exact .argsRedirect (redirect_blank h1) h2
  | argsWord h1 h2 => exact .argsWord (redirect_blank h1) h2
  | argsEnd h1 => exact .argsEnd (redirect_blank h1)

theorem assigns_blank {w : Str} {b b' : B.State} {l r : List Token} {k}
    (h : Reads .assigns b l k r b') : Reads .assigns b (.Whitespace w :: l) k r b' := by
  cases h with
  | assignEmpty h1 h2 => exact .assignEmpty (skip_blank h1) h2
  | assign h1 h2 h3 h4 => exact .assign (skip_blank h1) h2 h3 h4
  | assignsRedirect h1 h2 h3 h4 => exact .assignsRedirect (skip_blank h1) h2 h3 h4
  | assignsWord h1 h2 h3 => exact .assignsWord (skip_blank h1) h2 h3
  | assignsEnd h1 h2 h3 => exact .assignsEnd (skip_blank h1) h2 h3

end

/-- The default builder keeps the parts of a simple command. -/
theorem calls_simple (vs ws) : Gram.Calls (B := DefaultBuilder) (.simpleCommand vs ws) () (.Simple ⟨vs, ws⟩) () := by
  show (BOut.ok (PipeableCommand.Simple (SimpleCommand.mk (vs.map stringCore.mapEnvVar) ws)), ()) = _
  have := mapEnvVar_id vs
  rw [this]

/-! ## Items -/

/-- The tree of `x='v'` after the command word. -/
theorem assign_word {ws : List (WordKind (TopLevelCommand Str))} {x v : Str} (h : Quoted ws v) :
    literalThenQuoted (stringCore.word (wordWith (.Simple (.Literal x) :: .Simple (.Literal ['=']) :: ws))) =
      some (x ++ ['='], v) := by
  have hc : compress (wordWith (.Simple (.Literal x) :: .Simple (.Literal ['=']) :: ws)) =
      .Concat (.Simple (.Literal (x ++ ['='])) :: ws) := by
    have hch : List.IsChain (fun a b => ¬ Mergeable a b) (.Simple (.Literal (x ++ ['='])) :: ws) := by
      refine List.isChain_cons.2 ⟨fun y hy => ?_, h.chain⟩
      cases h <;> (cases hy; simp [Mergeable])
    have := merge_fixed (fun a b h => coalesceWord_not h) _ hch
    simp only [merge] at this
    simp only [wordWith, compress, Coalesce.collect_eq, merge]
    rw [mergeFrom]
    simp only [coalesceWord, coalesceSimple]
    rw [this]
    obtain ⟨w, ws', rfl⟩ := List.exists_cons_of_ne_nil h.ne_nil
    rfl
  rw [C32_default_builder_compresses, hc]
  simp only [Core.complexOf, List.map_cons, Core.partOf, Core.simpleOf, literalThenQuoted]
  clear hc
  have : ((ws.map (stringCore.partOf)).mapM quotedPart).map List.flatten = some v := by
    induction h with
    | last => simp [Core.partOf, quotedPart]
    | @cons x ws t _ _ ih =>
      cases hm : (ws.map (stringCore.partOf)).mapM quotedPart with
      | none => rw [hm] at ih; cases ih
      | some v =>
        rw [hm] at ih
        cases ih
        simp [hm, Core.partOf, Core.simpleOf, quotedPart]
  rw [this]
  rfl

section
variable {cc : CharClass} (hs : cc.Sane)
include hs

/-- A redirection. -/
theorem redir_reads (r : RedirText) (hr : r.Ok) (rest : Str) (he : Gram.EndsWord (lex cc rest)) :
    ∃ a, r.Is a ∧ Gram.NoBlank (lex cc (r.text ++ rest)) ∧ ¬ AssignStart (lex cc (r.text ++ rest)) ∧
      Reads (B := DefaultBuilder) .redirect () (lex cc (r.text ++ rest)) (some (.inl a)) (lex cc rest) () := by
  obtain ⟨fd, op, path⟩ := r
  obtain ⟨h1, h2, -, h4, -⟩ := pathRedirects_ops op hr.2
  obtain ⟨l, w, hl, hread, hq⟩ := path_text cc hs op hr.2 path rest he fd
  refine ⟨_, ⟨w, rfl, hq⟩, ?_⟩
  simp only [RedirText.text, List.append_assoc]
  cases fd with
  | none =>
    simp only [Option.elim, List.nil_append]
    rw [hl]
    refine ⟨noBlank_op h4 l, ?_, ?_⟩
    · rintro ⟨x, r, h⟩
      rw [List.cons.injEq] at h
      rw [h.1] at h4; exact absurd h4 (by simp [redirOps])
    · exact .redirect (noWord_op (B := DefaultBuilder) (bs := []) .nil h4 l ()) h4 hread
  | some n =>
    simp only [Option.elim]
    rw [lex_digits cc hs n (by rw [h1]; exact fun c => head_opStart h2 _ c), hl]
    have hu := fdToks_digits (hr.1 n rfl)
    refine ⟨by simp [Gram.NoBlank], ?_, ?_⟩
    · rintro ⟨x, r, h⟩; cases h
    · exact .redirectFd (plain_word (B := DefaultBuilder) (bs := []) (u := [.Literal (natDigits n)]) .nil hu.ne hu.1 hu.head (endsWord_op h4 l) ())
        (hu.fdWord _) h4 hread

theorem lex_ender {rest : Str} (hr : ∀ c, rest.head? = some c → c ∈ "\n;&|()".toList) {t r}
    (h : lex cc rest = t :: r) :
    t ∈ [.Newline, .Semi, .DSemi, .Amp, .AndIf, .Pipe, .OrIf, .ParenOpen, .ParenClose] := by
  have hops : ∀ p ∈ operators, ∀ c ∈ "\n;&|()".toList, p.1.head? = some c →
      p.2 ∈ [.Newline, .Semi, .DSemi, .Amp, .AndIf, .Pipe, .OrIf, .ParenOpen, .ParenClose] := by decide
  have hst : ∀ c ∈ "\n;&|()".toList, c ≠ '\\' ∧ (c ∈ ['\n', '!', '~', '#', '*', '?', '%', '-', '=', '+', ':', '@', '^', '/', ',',
      '\'', '"', '`', '(', ')', '{', '}', '[', ']'] ∨ c ∈ [';', '&', '|', '<', '>', '$']) := by decide
  cases rest with
  | nil =>
    have : lex cc [] = [] := (C03_tokens_iff_grammar _ _ _).2 .nil
    rw [this] at h; cases h
  | cons c rest =>
    replace hr := hr c rfl
    have hc := (hst c hr).1
    have ho := opStart_iff.2 (hst c hr).2
    rcases lexes_cons_inv (lex_lexes cc (c :: rest)) with ⟨rfl, -⟩ | ⟨_, _, _, _, rfl, -⟩ |
      ⟨o, s, t, ts, h1, h2, h3, h4, -⟩ | ⟨_, _, _, -, h1, -⟩ | ⟨_, _, _, h1, -⟩ | ⟨_, _, _, h1, -⟩
    · exact absurd rfl hc
    · exact absurd rfl hc
    · have hc : o.head? = some c := by
        obtain ⟨d, ds, r, rfl, -, h⟩ := longestOp_head h4
        cases h; rfl
      rw [h3] at h
      cases h
      exact hops _ h4.1 c hr hc
    · exact absurd ho h1
    · exact absurd ho h1.2.1
    · exact absurd ho h1.2.1

/-- What may follow the command: the end of the input or one of these characters. -/
theorem ender_reads {rest : Str} (hr : ∀ c, rest.head? = some c → c ∈ "\n;&|()".toList) :
    Gram.NoBlank (lex cc rest) ∧ ¬ AssignStart (lex cc rest) ∧
      Reads (B := DefaultBuilder) .redirect () (lex cc rest) none (lex cc rest) () := by
  have hl := fun t r => lex_ender hs hr (t := t) (r := r)
  have hops : ∀ t ∈ [Token.Newline, .Semi, .DSemi, .Amp, .AndIf, .Pipe, .OrIf, .ParenOpen, .ParenClose],
    t.isWordDelimiter = true ∧ t ∉ redirOps ∧ t ≠ .Backslash ∧ t ≠ .Pound := by decide
  have hb : Gram.NoBlank (lex cc rest) := by
    refine ⟨fun w r e => ?_, fun r e => ?_⟩
    · have := hl _ _ e; simp at this
    · exact (hops _ (hl _ _ e)).2.2.1 rfl
  refine ⟨hb, ?_, ?_⟩
  · rintro ⟨x, r, e⟩
    have := hl _ _ e; simp at this
  · refine .noRedirect (Reads.someWord (ws := []) (.refl hb) ?_ (.endWord ?_)) ?_
    · intro r e
      exact (hops _ (hl _ _ e)).2.2.2 rfl
    · exact fun t r e => (hops _ (hl _ _ e)).1
    · exact fun t r e => (hops _ (hl _ _ e)).2.1

/-- The words and redirections after the command word. -/
theorem args_reads {rest : Str} (hr : ∀ c, rest.head? = some c → c ∈ "\n;&|()".toList) (args : List ArgItem)
    (h : ∀ i ∈ args, i.Ok cc) :
    ∃ as, List.Forall₂ ArgItem.Is args as ∧ Gram.NoBlank (lex cc (argText args ++ rest)) ∧
      Reads (B := DefaultBuilder) .args () (lex cc (argText args ++ rest)) as (lex cc rest) () := by
  induction args with
  | nil =>
    obtain ⟨h1, h2, h3⟩ := ender_reads hs hr
    exact ⟨[], .nil, h1, .argsEnd h3⟩
  | cons i args ih =>
    obtain ⟨as, h1, h2, h3⟩ := ih fun j hj => h j (by simp [hj])
    have hsp := lex_space hs h2
    have he : Gram.EndsWord (lex cc (' ' :: (argText args ++ rest))) := by
      rw [hsp]; rintro _ _ e; cases e; rfl
    have h3' := args_blank (w := [' ']) h3
    rw [← hsp] at h3'
    have e : argText (i :: args) ++ rest = i.text ++ (' ' :: (argText args ++ rest)) := by
      simp [argText]
    rw [e]
    replace h := h i (by simp)
    cases i with
    | word s =>
      obtain ⟨ws, hq, hb, hw⟩ := quoted_raw cc hs (B := DefaultBuilder) () s _ he
      refine ⟨_, .cons (.word (quoted_word hq)) h1, hb, .argsWord (b' := ()) (.redirectWord hw ?_ rfl) h3'⟩
      rintro _ t r e
      rw [hsp] at e; cases e; simp [redirOps]
    | assign x v =>
      obtain ⟨ws, r, hq, hl, hread⟩ := quoted_reads hs (B := DefaultBuilder) () _ he v
      have hl' : lex cc (ArgItem.text (.assign x v) ++ (' ' :: (argText args ++ rest))) =
          .Name x :: .Equals :: .SingleQuote :: r := by
        rw [← hl, ← lex_assign hs h]
        simp [ArgItem.text]
      rw [hl']
      refine ⟨_, .cons (.assign (assign_word hq)) h1, by simp [Gram.NoBlank],
        .argsWord (b' := ()) (.redirectWord (b' := ()) ?_ ?_ rfl) h3'⟩
      · have := Reads.someWord (B := DefaultBuilder) (.refl (by simp [Gram.NoBlank])) (by simp)
          (.consPiece (by simp) (PlainToken.piece (B := DefaultBuilder) (t := .Name x) (.inl ⟨_, .inl rfl⟩) () _)
            (.consPiece (by simp) (PlainToken.piece (B := DefaultBuilder) (t := .Equals) (.inr (by decide)) () _) hread))
        rwa [wordOf_eq (by simp)] at this
      · rintro _ t r e
        rw [hsp] at e; cases e; simp [redirOps]
    | redirect r =>
      obtain ⟨a, ha, hb, -, hread⟩ := redir_reads hs r h _ he
      exact ⟨_, .cons (.redirect ha) h1, hb, .argsRedirect hread h3'⟩

/-- The assignments and redirections before the command word. -/
theorem assigns_reads {l1 r1 : List Token} {e} {rest : Str} (pre : List PreItem) (h : ∀ i ∈ pre, i.Ok cc)
    (hb : Gram.NoBlank (lex cc rest)) (hl : lex cc rest = l1)
    (he : Reads (B := DefaultBuilder) .assigns () l1 ([], e) r1 ()) :
    ∃ vs, List.Forall₂ PreItem.Is pre vs ∧ Gram.NoBlank (lex cc (preText pre ++ rest)) ∧
      Reads (B := DefaultBuilder) .assigns () (lex cc (preText pre ++ rest)) (vs, e) r1 () := by
  induction pre with
  | nil => exact ⟨[], .nil, hb, hl ▸ he⟩
  | cons i pre ih =>
    obtain ⟨as, h1, h2, h3⟩ := ih fun j hj => h j (by simp [hj])
    have hsp := lex_space hs h2
    have he : Gram.EndsWord (lex cc (' ' :: (preText pre ++ rest))) := by
      rw [hsp]; rintro _ _ e; cases e; rfl
    have h3' := assigns_blank (w := [' ']) h3
    have e : preText (i :: pre) ++ rest = i.text ++ (' ' :: (preText pre ++ rest)) := by
      simp [preText]
    rw [e]
    replace h := h i (by simp)
    rcases i with ⟨x, _ | v⟩ | r
    · have hl' : lex cc (PreItem.text (.assign x none) ++ (' ' :: (preText pre ++ rest))) =
          .Name x :: .Equals :: .Whitespace [' '] :: lex cc (preText pre ++ rest) := by
        rw [← hsp, ← lex_assign hs h]
        simp [PreItem.text]
      rw [hl']
      refine ⟨_, .cons .assignNone h1, by simp [Gram.NoBlank], .assignEmpty (.refl (by simp [Gram.NoBlank])) h3'⟩
    · obtain ⟨ws, hq, hb, hw⟩ := quoted_raw cc hs (B := DefaultBuilder) () v _ he
      have hl' : lex cc (PreItem.text (.assign x (some v)) ++ (' ' :: (preText pre ++ rest))) =
          .Name x :: .Equals :: lex cc (shellQuote v ++ (' ' :: (preText pre ++ rest))) := by
        rw [← lex_assign hs h]
        simp [PreItem.text]
      rw [hl']
      rw [hsp] at hw
      refine ⟨_, .cons (.assignSome (quoted_word hq)) h1, by simp [Gram.NoBlank],
        .assign (b' := ()) (.refl (by simp [Gram.NoBlank])) hb.1
          (.word (.wordPSome hw rfl) (skip_blank (.refl h2))) h3⟩
    · obtain ⟨a, ha, hb, hn, hread⟩ := redir_reads hs r h _ he
      rw [← hsp] at h3'
      exact ⟨_, .cons (.redirect ha) h1, hb, .assignsRedirect (.refl hb) hn hread h3'⟩

/-- **C35.** A simple command is parsed into exactly its parts: the assignments `x='v'` (and `x=`,
without a value) before the command word become assignments, with their names and values, in order
and mixed with redirections in any way; after the command word, `x='v'` is an argument like any other
and its `x=` is ordinary text. This holds for all names, values, words and paths, any number of each,
and whatever follows the command. -/
theorem C35_simple_command (pre : List PreItem) (cmd : Str) (args : List ArgItem) (rest : Str)
    (hpre : ∀ i ∈ pre, i.Ok cc) (hargs : ∀ i ∈ args, i.Ok cc)
    (hr : ∀ c, rest.head? = some c → c ∈ "\n;&|()".toList) :
    ∃ vs ws, Parses (B := DefaultBuilder) .simpleCommand
        (parserOn (lex cc (preText pre ++ (argText (.word cmd :: args) ++ rest))) ())
        (.Simple ⟨vs, ws⟩) (lex cc rest) () ∧
      List.Forall₂ PreItem.Is pre vs ∧ List.Forall₂ ArgItem.Is (.word cmd :: args) ws := by
  obtain ⟨as, h1, h2, h3⟩ := args_reads hs hr args hargs
  have hsp := lex_space hs h2
  have he : Gram.EndsWord (lex cc (' ' :: (argText args ++ rest))) := by
    rw [hsp]; rintro _ _ e; cases e; rfl
  have h3' := args_blank (w := [' ']) h3
  rw [← hsp] at h3'
  have e : argText (.word cmd :: args) ++ rest = shellQuote cmd ++ (' ' :: (argText args ++ rest)) := by
    simp [argText, ArgItem.text]
  obtain ⟨ws, hq, hb, hw⟩ := quoted_raw cc hs (B := DefaultBuilder) () cmd _ he
  obtain ⟨_, r0, _, hl, -⟩ := quoted_reads hs (B := DefaultBuilder) () _ he cmd
  rw [e]
  have hcmd : Reads (B := DefaultBuilder) .redirect () (lex cc (shellQuote cmd ++ (' ' :: (argText args ++ rest))))
      (some (.inr (stringCore.word (wordWith ws)))) (lex cc (' ' :: (argText args ++ rest))) () := by
    refine .redirectWord hw ?_ rfl
    rintro _ t r e
    rw [hsp] at e; cases e; simp [redirOps]
  obtain ⟨vs, h4, h5, h6⟩ := assigns_reads hs pre hpre hb rfl
    (.assignsWord (.refl hb) (by rw [hl]; rintro ⟨_, _, e⟩; cases e) hcmd)
  refine ⟨vs, _, ?_, h4, .cons (.word (quoted_word hq)) h1⟩
  refine C31_parser_accepts_grammar .simpleCommand trivial _ _ _ _ ?_
  show Reads (B := DefaultBuilder) .simple () _ _ _ _
  rw [PSt.tokens, parserOn_rest]
  refine .simple (b' := ()) (b'' := ()) h6 h3' (.inr (.inl rfl)) ?_
  exact calls_simple vs _

/-- **C35.** Assignments and redirections alone are a command too. -/
theorem C35_assignments_only (pre : List PreItem) (rest : Str) (hne : pre ≠ [])
    (hpre : ∀ i ∈ pre, i.Ok cc) (hr : ∀ c, rest.head? = some c → c ∈ "\n;&|()".toList) :
    ∃ vs, Parses (B := DefaultBuilder) .simpleCommand (parserOn (lex cc (preText pre ++ rest)) ())
        (.Simple ⟨vs, []⟩) (lex cc rest) () ∧ List.Forall₂ PreItem.Is pre vs := by
  obtain ⟨h1, h2, h3⟩ := ender_reads hs hr
  obtain ⟨vs, h4, h5, h6⟩ := assigns_reads hs pre hpre h1 rfl (.assignsEnd (.refl h1) h2 h3)
  refine ⟨vs, ?_, h4⟩
  refine C31_parser_accepts_grammar .simpleCommand trivial _ _ _ _ ?_
  show Reads (B := DefaultBuilder) .simple () _ _ _ _
  rw [PSt.tokens, parserOn_rest]
  refine .simple (b' := ()) (b'' := ()) h6 (.argsEnd h3) (.inl ?_) ?_
  · rintro rfl; cases h4; exact hne rfl
  · exact calls_simple vs _

end

/-- `x='a b' y= 2>'log' 'cmd' z='1';` -/
example (cc : CharClass) (hs : cc.Sane) (hx : ∀ c ∈ "xyz".toList, cc.alphabetic c = true) :
    ∃ v a c z, Parses (B := DefaultBuilder) .simpleCommand
        (parserOn (lex cc "x='a b' y= 2>'log' 'cmd' z='1' ;".toList) ())
        (.Simple ⟨[.EnvVar ['x'] (some v), .EnvVar ['y'] none, .Redirect (.Write (some 2) a)],
          [.CmdWord c, .CmdWord z]⟩) (lex cc [';']) () ∧
      quotedText v = some "a b".toList ∧ quotedText a = some "log".toList ∧ quotedText c = some "cmd".toList ∧
      literalThenQuoted z = some ("z=".toList, "1".toList) := by
  have hn : ∀ c ∈ "xyz".toList, Shape cc (.Name [c]) := fun c hc => ⟨c, [], rfl, .inr (hx c hc), by simp⟩
  obtain ⟨vs, ws, h1, h2, h3⟩ := C35_simple_command hs
    [.assign ['x'] (some "a b".toList), .assign ['y'] none, .redirect ⟨some 2, (">", .Great, .Write), "log".toList⟩]
    "cmd".toList [.assign ['z'] ['1']] [';']
    (by
      intro i hi
      simp only [List.mem_cons, List.not_mem_nil, or_false] at hi
      rcases hi with rfl | rfl | rfl
      · exact hn _ (by decide)
      · exact hn _ (by decide)
      · exact ⟨by simp, by simp [pathRedirects]⟩)
    (by
      intro i hi
      simp only [List.mem_cons, List.not_mem_nil, or_false] at hi
      subst hi
      exact hn _ (by decide))
    (by decide)
  rcases h2 with _ | ⟨h21, _ | ⟨h22, _ | ⟨h23, _ | _⟩⟩⟩
  rcases h3 with _ | ⟨h31, _ | ⟨h32, _ | _⟩⟩
  cases h21 with | assignSome h21 =>
  cases h22
  cases h23 with | redirect h23 =>
  cases h31 with | word h31 =>
  cases h32 with | assign h32 =>
  obtain ⟨a, rfl, ha⟩ := h23
  exact ⟨_, a, _, _, h1, h21, ha, h31, h32⟩

/-! ## On tokens -/

/-- Nothing that could be a value follows the `=`: a blank, a delimiter, the end of the input, or a
comment (also after an escaped newline). -/
def Spec.NoValue (l : List Token) : Prop :=
  (∃ w r, l = .Whitespace w :: r) ∨
    ∃ l', Gram.Skip l l' ∧ (Gram.EndsWord l' ∨ (∃ r, l' = .Pound :: r) ∨ l' = [.Backslash])

section
variable {B : Builder}

theorem no_backslash_piece {b b' : B.State} {w r} (h : Reads .piece b [.Backslash] w r b') : False := by
  generalize hl : [Token.Backslash] = l at h
  cases h with
  | literal h => cases hl; revert h; decide
  | special h =>
    cases hl
    simp only [specialTokens, List.mem_cons, List.not_mem_nil, or_false, Prod.mk.injEq] at h
    rcases h with ⟨h, -⟩ | ⟨h, -⟩ | ⟨h, -⟩ | ⟨h, -⟩ | ⟨h, -⟩ | ⟨h, -⟩ <;> cases h
  | singleQuoted h => cases hl
  | pieceBacktick h => cases h; cases hl
  | pieceParam h => cases h <;> cases hl
  | _ => cases hl

theorem word_absent {b b' : B.State} {l r : List Token} {v} (h : Reads .word b l v r b') :
    v = none ↔ ∃ l', Gram.Skip l l' ∧ (Gram.EndsWord l' ∨ (∃ r, l' = .Pound :: r) ∨ l' = [.Backslash]) := by
  cases h with
  | word h hskip =>
    constructor
    · rintro rfl
      cases h with
      | wordPNone h =>
        generalize hk : (none : Option (ComplexWordKind B.Command)) = k at h
        cases h with
        | noWord h => exact ⟨_, h, .inr (.inl ⟨_, rfl⟩)⟩
        | @someWord _ _ _ _ ws _ _ h1 h2 h3 =>
          have : ws = [] := by
            rcases ws with _ | ⟨w, _ | ⟨w', ws⟩⟩ <;> simp [wordOf] at hk
            rfl
          subst this
          cases h3 with
          | endWord h => exact ⟨_, h1, .inl h⟩
          | endEscaped => exact absurd rfl (h1.noBlank.2 _)
          | endBackslash => exact ⟨_, h1, .inr (.inr rfl)⟩
    · rintro ⟨l', hs, h'⟩
      cases h with
      | wordPNone => rfl
      | wordPSome h =>
        exfalso
        rename_i k _ _ _
        generalize hk : some k = k' at h
        cases h with
        | noWord => cases hk
        | @someWord _ _ _ _ ws _ _ h1 h2 h3 =>
          obtain rfl := h1.unique hs
          cases h3 with
          | endWord => cases hk
          | endEscaped => cases hk
          | endBackslash => cases hk
          | consPiece _ hp =>
            obtain ⟨t, l2, rfl, ht, hb⟩ := hp.piece_head
            rcases h' with h' | ⟨r, h'⟩ | h'
            · rw [h' _ _ rfl] at ht; cases ht
            · cases h'; exact h2 _ rfl
            · rw [h'] at hp
              exact no_backslash_piece hp

end

/-- **C35.** Whatever the tokens: the first part of a simple command is an assignment exactly when
the command starts with a name directly followed by `=`; its name is that name; it has no value
exactly when nothing that could be one follows the `=`; and the rest of the command is parsed in the
same way, as a simple command of its own (if there is any). -/
theorem C35_assignment_iff (s : PSt CIter DefaultBuilder) (vs ws) (r : List Token) (b)
    (h : Parses .simpleCommand s (.Simple ⟨vs, ws⟩) r b) :
    (∀ x l, Gram.Skip s.tokens (.Name x :: .Equals :: l) → ∃ v vs' l', vs = .EnvVar x v :: vs' ∧
      (v = none ↔ NoValue l) ∧ (v = none ∧ l' = l ∨ Reads (B := DefaultBuilder) .word () l v l' ()) ∧
      (vs' = [] ∧ ws = [] ∨ Reads (B := DefaultBuilder) .simple () l' (.Simple ⟨vs', ws⟩) r ())) ∧
    ((¬ ∃ x l, Gram.Skip s.tokens (.Name x :: .Equals :: l)) → ∀ x v vs', vs ≠ .EnvVar x v :: vs') := by
  obtain ⟨vars, cmd, l0, args, h1, h2, h3⟩ := C33_simple_order s _ r b h
  cases h3
  have tail : ∀ {l' vs'}, Reads (B := DefaultBuilder) .assigns () l' (vs', cmd) l0 () →
      vs' = [] ∧ cmd.toList.map .CmdWord ++ args = [] ∨
        Reads (B := DefaultBuilder) .simple () l' (.Simple ⟨vs', cmd.toList.map .CmdWord ++ args⟩) r () := by
    intro l' vs' h
    by_cases hne : vs' ≠ [] ∨ cmd.isSome ∨ args ≠ []
    · exact .inr (.simple (b' := ()) (b'' := ()) h h2 hne (calls_simple _ _))
    · simp only [not_or, not_not, Option.isSome_iff_ne_none] at hne
      obtain ⟨rfl, rfl, rfl⟩ := hne
      exact .inl ⟨rfl, rfl⟩
  generalize s.tokens = l at h1
  replace h1 : ∃ b1 b2, Reads (B := DefaultBuilder) .assigns b1 l (vs, cmd) l0 b2 := ⟨_, _, h1⟩
  obtain ⟨b1, b2, h1⟩ := h1
  refine ⟨fun x l1 hx => ?_, ?_⟩
  · cases h1 with
    | assignEmpty h3 h4 =>
      cases h3.unique hx
      exact ⟨none, _, _, rfl, ⟨fun _ => .inl ⟨_, _, rfl⟩, fun _ => rfl⟩, .inl ⟨rfl, rfl⟩, tail h4⟩
    | assign h3 h4 h5 h6 =>
      cases h3.unique hx
      refine ⟨_, _, _, rfl, ⟨fun h => .inr ((word_absent h5).1 h), fun h => (word_absent h5).2 ?_⟩, .inr h5, tail h6⟩
      rcases h with ⟨w, r, h⟩ | h
      · exact absurd h (h4 _ _)
      · exact h
    | assignsRedirect h3 h4 => cases h3.unique hx; exact absurd ⟨_, _, rfl⟩ h4
    | assignsWord h3 h4 => cases h3.unique hx; exact absurd ⟨_, _, rfl⟩ h4
    | assignsEnd h3 h4 => cases h3.unique hx; exact absurd ⟨_, _, rfl⟩ h4
  · rintro hn x v vs' rfl
    cases h1 with
    | assignEmpty h3 h4 => exact hn ⟨_, _, h3⟩
    | assign h3 h4 h5 h6 => exact hn ⟨_, _, h3⟩

end Conch
