import Verif.PropsQuote
import Verif.RoundTrip
/-!
# C24: command lines of quoted arguments
-/
namespace Conch
open Spec Gram

/-- A command and its arguments, all of them quoted, with blanks between them. -/
def Spec.argLine : List Str → Str
  | [] => []
  | [s] => shellQuote s
  | s :: ss => shellQuote s ++ ' ' :: argLine ss

/-- The tree of a command with these words only: no redirections, no assignments. -/
def Spec.wordsCommand (ws : List SWord) : SPipeable := .Simple ⟨[], ws.map .CmdWord⟩

section
variable {cc : CharClass}

/-- Arguments after something. -/
def argTail (ss : List Str) : Str := ss.flatMap fun s => ' ' :: shellQuote s

theorem argLine_cons (s : Str) (ss : List Str) : argLine (s :: ss) = shellQuote s ++ argTail ss := by
  induction ss generalizing s with
  | nil => simp [argLine, argTail]
  | cons t ss ih => simp [argLine, ih, argTail]

/-- What a word may be followed by. -/
theorem ender_endsWord (hs : cc.Sane) {rest : Str} (hr : ∀ c, rest.head? = some c → c ∈ "\n;&|()".toList) :
    Gram.EndsWord (lex cc rest) := by
  intro t r e
  have := lex_ender hs hr e
  clear e
  revert t
  decide

theorem quoted_redirect (hs : cc.Sane) (s rest : Str) (hr : Gram.EndsWord (lex cc rest))
    (hn : ∀ t r, lex cc rest = t :: r → t ∉ redirOps) :
    ∃ w l, lex cc (shellQuote s ++ rest) = .SingleQuote :: l ∧ quotedText w = some s ∧
      RD .redirect (.SingleQuote :: l) (some (.inr w)) (lex cc rest) ∧
      RD .redirect (wsp :: .SingleQuote :: l) (some (.inr w)) (lex cc rest) := by
  obtain ⟨ws, r, hq, hl, hread⟩ := quoted_reads (B := DefaultBuilder) hs () rest hr s
  refine ⟨stringCore.word (wordWith ws), r, hl, quoted_word hq, ?_, ?_⟩
  · have := Reads.someWord (.refl (by simp [Gram.NoBlank])) (by simp) hread
    rw [wordOf_eq hq.ne_nil] at this
    exact .redirectWord this (fun _ => hn) rfl
  · have := Reads.someWord ⟨[wsp], rfl, .ws .nil, by simp [Gram.NoBlank]⟩ (by simp) hread
    rw [wordOf_eq hq.ne_nil] at this
    exact .redirectWord this (fun _ => hn) rfl

theorem argTail_reads (hs : cc.Sane) (rest : Str) (hr : ∀ c, rest.head? = some c → c ∈ "\n;&|()".toList)
    (ss : List Str) : ∃ ws : List SWord, ws.map quotedText = ss.map some ∧
      RD .args (lex cc (argTail ss ++ rest)) (ws.map .CmdWord) (lex cc rest) ∧
      Gram.EndsWord (lex cc (argTail ss ++ rest)) ∧
      ∀ t r, lex cc (argTail ss ++ rest) = t :: r → t ∉ redirOps := by
  induction ss with
  | nil =>
    obtain ⟨h1, h2, h3⟩ := ender_reads hs hr
    refine ⟨[], rfl, .argsEnd h3, ender_endsWord hs hr, fun t r e => ?_⟩
    have := lex_ender hs hr e
    clear e h3
    revert t
    decide
  | cons s ss ih =>
    obtain ⟨ws, h1, h2, h3, h4⟩ := ih
    obtain ⟨w, l, k1, k2, -, k3⟩ := quoted_redirect hs s _ h3 h4
    have e : lex cc (argTail (s :: ss) ++ rest) = wsp :: .SingleQuote :: l := by
      rw [← k1, ← lex_sp hs (by rw [NB, k1]; simp [Gram.NoBlank])]
      simp [argTail]
    rw [e]
    refine ⟨w :: ws, by simp [k2, h1], .argsWord k3 h2, ?_, ?_⟩
    · rintro t r e; cases e; rfl
    · rintro t r e; cases e; decide

theorem quote_start (l : List Token) : SimpleStart (.SingleQuote :: l) := by
  refine ⟨?_, ⟨_, _, rfl, by decide⟩, by simp, by simp, by simp [Gram.NoBlank]⟩
  rintro x - r ⟨e | e, -⟩ <;> cases e

/-- The tree and the tokens of a line of quoted words. -/
theorem line_reads (hs : cc.Sane) (rest : Str) (hr : ∀ c, rest.head? = some c → c ∈ "\n;&|()".toList)
    (s : Str) (ss : List Str) : ∃ (ws : List SWord) (l : List Token), ws.map quotedText = (s :: ss).map some ∧
      lex cc (argLine (s :: ss) ++ rest) = .SingleQuote :: l ∧
      RD .simple (.SingleQuote :: l) (wordsCommand ws) (lex cc rest) := by
  obtain ⟨ws, h1, h2, h3, h4⟩ := argTail_reads hs rest hr ss
  obtain ⟨w, l, k1, k2, k3, -⟩ := quoted_redirect hs s _ h3 h4
  refine ⟨w :: ws, l, by simp [k2, h1], by rw [← k1, argLine_cons]; simp, ?_⟩
  refine .simple (e := some w) (.assignsWord (.refl (by simp [Gram.NoBlank])) ?_ k3) h2 (by simp) rfl
  rintro ⟨x, r, e⟩; cases e

end

/-- **C24, arguments.** A command and its arguments, whatever they are, quoted and separated by blanks, are one
simple command of exactly these words: nothing in them is an operator, a keyword, an assignment, an
expansion or a redirection. What follows (from the end of the line or an operator on) is left. -/
theorem C24_arguments (cc : CharClass) (hs : cc.Sane) (cmd : Str) (args : List Str) (rest : Str)
    (hr : ∀ c, rest.head? = some c → c ∈ "\n;&|()".toList) :
    ∃ ws : List SWord, ws.map quotedText = (cmd :: args).map some ∧
      Parses (B := DefaultBuilder) .simpleCommand (parserOn (lex cc (argLine (cmd :: args) ++ rest)) ())
        (wordsCommand ws) (lex cc rest) () := by
  obtain ⟨ws, l, h1, h2, h3⟩ := line_reads hs rest hr cmd args
  refine ⟨ws, h1, C31_parser_accepts_grammar .simpleCommand trivial _ _ _ _ ?_⟩
  show Reads (B := DefaultBuilder) .simple _ _ _ _ _
  rw [PSt.tokens, parserOn_rest, h2]
  exact h3

/-- **C24, whole lines.** The same for a line of a script: `complete_command` returns that command, to be run in
the foreground, and leaves the following lines. -/
theorem C24_line_of_arguments (cc : CharClass) (hs : cc.Sane) (cmd : Str) (args : List Str) (rest : Str) :
    ∃ ws : List SWord, ws.map quotedText = (cmd :: args).map some ∧
      Parses (B := DefaultBuilder) .completeCommand
        (parserOn (lex cc (argLine (cmd :: args) ++ '\n' :: rest)) ())
        (some (.mk (.List ⟨.Single (wordsCommand ws), []⟩))) (lex cc rest) () := by
  obtain ⟨ws, l, h1, h2, h3⟩ := line_reads hs ('\n' :: rest) (by simp) cmd args
  refine ⟨ws, h1, C31_parser_accepts_grammar .completeCommand trivial _ _ _ _ ?_⟩
  show Reads (B := DefaultBuilder) .top _ _ _ _ _
  have hs' := quote_start l
  rw [PSt.tokens, parserOn_rest, h2]
  refine .topCommand hs'.starts.lines hs'.starts.not_nil ?_
  have hp : RD .pipelineCmds (.SingleQuote :: l) [([], wordsCommand ws)] (lex cc ('\n' :: rest)) := by
    refine .pipeLast (by simp) (.commandSimple (.refl hs'.nb) hs'.compound hs'.function h3) ?_
    rw [lex_newline]; simp
  have hq : RD .pipeline (.SingleQuote :: l) (.Single (wordsCommand ws)) (lex cc ('\n' :: rest)) :=
    .pipeline (.refl hs'.nb) (.inr ⟨rfl, rfl, by simp⟩) hp rfl
  rw [lex_newline] at hq
  exact .complete (.andOr hq (.andOrEnd (.refl (by simp [Gram.NoBlank])) (by simp)) rfl)
    (.newline (.newline (bs := []) .nil) (by simp)) rfl

/-- Words that would be something else without quotes. -/
example : String.ofList (argLine ["rm".toList, "$(reboot)".toList, "a'; b".toList, "".toList]) =
    "'rm' '$(reboot)' 'a'\\''; b' ''" := by decide

end Conch
