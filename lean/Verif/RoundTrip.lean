import Verif.RoundGroup
/-!
# C39: programs that are written down are read back
-/
namespace Conch
open Spec Gram

section
variable {cc : CharClass}

variable (cc) in
/-- The claim for each kind of part. -/
def RoundClaim : (s : Srt) → Syn s → Prop
  | .exp, x => ExpClaim cc x
  | .dparts, x => DClaim cc x
  | .parts, x => PartsClaim cc x
  | .words, x => WordsClaim cc x
  | .redir, x => RedirClaim cc x
  | .redirs, x => RedirsClaim cc x
  | .pres, x => PresClaim cc x ∧ ∀ a q, x = .predir a q → PresClaim cc q ∧ RedirClaim cc a
  | .args, x => ArgsClaim cc x ∧ ∀ w as, x = .aword w as → PartsClaim cc w ∧ ArgsClaim cc as
  | .comp, x => CompClaim cc x
  | .cmd, x => CmdClaim cc x
  | .pipe, x => PipeClaim cc x
  | .listable, x => ListableClaim cc x
  | .rest, x => RestClaim cc x
  | .command, x => CommandClaim cc x
  | .commands, x => CommandsClaim cc x
  | .ifs, x => IfsClaim cc x
  | .pats, x => PatsClaim cc x
  | .arms, x => ArmsClaim cc x

/-- All parts are read as they should be. -/
theorem round_claim (hs : cc.Sane) (hl : Latin cc) {s : Srt} (x : Syn s) : x.Ok cc false → RoundClaim cc s x := by
  induction x with
  | param p => exact fun h => exp_param hs p h
  | len p => exact fun h => exp_len hs p h
  | subst op p w ih => exact fun h => exp_subst hs h.1 h.2.1 h.2.2.1 h.2.2.2 (ih h.2.1)
  | cmdSubst cs ih => exact fun h => exp_cmdSubst hs (ih h)
  | arith a => exact fun h => exp_arith hs a h
  | dnil => exact fun _ => d_nil
  | dtext s r ih => exact fun h => d_text hs h.1 h.2.1 (ih h.2.2)
  | desc c r ih => exact fun h => d_esc h.1 (ih h.2)
  | dexp e r ih1 ih2 => exact fun h => d_exp (ih1 h.1) (ih2 h.2)
  | nil => exact fun _ => parts_nil
  | lit s r ih => exact fun h => parts_lit hs h.1 h.2.1 (ih h.2.2)
  | esc c r ih => exact fun h => parts_esc h.1 (ih h.2)
  | glob g r ih => exact fun h => parts_glob hs (ih h)
  | single s r ih => exact fun h => parts_single hs h.1 h.2.1 (ih h.2.2)
  | double d r ih1 ih2 => exact fun h => parts_double h.1 (ih1 h.2.1) h.2.2.1 (ih2 h.2.2.2)
  | exp e r ih1 ih2 => exact fun h => parts_exp (ih1 h.1) (ih2 h.2)
  | wnil => exact fun _ => words_nil
  | wcons w ws ih1 ih2 => exact fun h => words_cons hs h.1 h.2.1 (ih1 h.2.1) (ih2 h.2.2)
  | file fd op w ih => exact fun h => redir_file hs h.1 h.2.1 h.2.2 (ih h.2.2)
  | dup fd op n => exact fun h => redir_dup hs h
  | close fd op => exact fun h => redir_close hs h
  | hereQuoted fd body => exact fun h => absurd h.1 (by simp)
  | here fd d ih => exact fun h => absurd h.1 (by simp)
  | rnil => exact fun _ => redirs_nil hs
  | rcons r rs ih1 ih2 => exact fun h => redirs_cons (ih1 h.1) (ih2 h.2)
  | pnil => exact fun _ => ⟨pres_nil, by simp⟩
  | passign x w r ih1 ih2 =>
    exact fun h => ⟨pres_assign hs h.1 h.2.1 h.2.2.1 (ih1 h.2.2.1) (ih2 h.2.2.2).1, by simp⟩
  | predir a r ih1 ih2 =>
    refine fun h => ⟨pres_redir (ih1 h.1) (ih2 h.2).1, ?_⟩
    rintro _ _ e
    cases e
    exact ⟨(ih2 h.2).1, ih1 h.1⟩
  | anil => exact fun _ => ⟨args_nil hs, by simp⟩
  | aword w r ih1 ih2 =>
    refine fun h => ⟨args_word hs h.1 h.2.1 (ih1 h.2.1) (ih2 h.2.2).1, ?_⟩
    rintro _ _ e
    cases e
    exact ⟨ih1 h.2.1, (ih2 h.2.2).1⟩
  | aredir a r ih1 ih2 => exact fun h => ⟨args_redir (ih1 h.1) (ih2 h.2).1, by simp⟩
  | brace cs io ih1 ih2 => exact fun h => comp_brace hs h.1 (ih1 h.2.1) (ih2 h.2.2)
  | subshell cs io ih1 ih2 => exact fun h => comp_subshell hs h.1 (ih1 h.2.1) (ih2 h.2.2)
  | loop k g b io ih1 ih2 ih3 =>
    exact fun h => comp_loop hs hl h.1 h.2.1 (ih1 h.2.2.1) (ih2 h.2.2.2.1) (ih3 h.2.2.2.2)
  | if_ f io ih1 ih2 => exact fun h => comp_if hs hl (ih1 h.1) (ih2 h.2)
  | forIn x ws b io ih1 ih2 ih3 =>
    exact fun h => comp_forIn hs hl h.1 h.2.1 (ih1 h.2.2.1) (ih2 h.2.2.2.1) (ih3 h.2.2.2.2)
  | forArgs x b io ih1 ih2 => exact fun h => comp_forArgs hs hl h.1 h.2.1 (ih1 h.2.2.1) (ih2 h.2.2.2)
  | case_ w as io ih1 ih2 ih3 =>
    exact fun h => comp_case hs hl h.1 h.2.1 (ih1 h.2.1) (ih2 h.2.2.1) (ih3 h.2.2.2)
  | fi g b ih1 ih2 => exact fun h => ifs_fi hs hl h.1 h.2.1 (ih1 h.2.2.1) (ih2 h.2.2.2)
  | else_ g b e ih1 ih2 ih3 =>
    exact fun h => ifs_else hs hl h.1 h.2.1 h.2.2.1 (ih1 h.2.2.2.1) (ih2 h.2.2.2.2.1) (ih3 h.2.2.2.2.2)
  | elif g b f ih1 ih2 ih3 => exact fun h => ifs_elif hs hl h.1 h.2.1 (ih1 h.2.2.1) (ih2 h.2.2.2.1) (ih3 h.2.2.2.2)
  | patLast w ih => exact fun h => pats_last hs h.1 h.2 (ih h.2)
  | patCons w ps ih1 ih2 => exact fun h => pats_cons hs h.1 h.2.1 (ih1 h.2.1) (ih2 h.2.2)
  | armsNil => exact fun _ => arms_nil hs hl
  | armsCons ps cs r ih1 ih2 ih3 => exact fun h => arms_cons hs (ih1 h.1) (ih2 h.2.1) (ih3 h.2.2)
  | simple pre args ih1 ih2 =>
    exact fun h => cmd_simple hs h.1 h.2.1 h.2.2.1 h.2.2.2 (ih1 h.2.2.1).1 (ih1 h.2.2.1).2 (ih2 h.2.2.2).1 (ih2 h.2.2.2).2
  | compound c ih => exact fun h => cmd_compound (ih h)
  | function x c ih => exact fun h => cmd_function hs h.1 h.2.1 (ih h.2.2)
  | last c ih => exact fun h => pipe_last (ih h)
  | into c r ih1 ih2 => exact fun h => pipe_into hs (ih1 h.1) (ih2 h.2)
  | pipeline bang p ih => exact fun h => listable_pipeline hs (ih h)
  | restNil => exact fun _ => rest_nil hs
  | and l r ih1 ih2 => exact fun h => rest_and hs (ih1 h.1) (ih2 h.2)
  | or l r ih1 ih2 => exact fun h => rest_or hs (ih1 h.1) (ih2 h.2)
  | command job l r ih1 ih2 => exact fun h => command_one hs (ih1 h.1) (ih2 h.2)
  | cnil => exact fun _ => commands_nil
  | ccons c cs ih1 ih2 => exact fun h => commands_cons (ih1 h.1) (ih2 h.2)

theorem round_yields (hs : cc.Sane) (hl : Latin cc) (cs : Syn .commands) (h : cs.Ok cc false) (s : PSt CIter DefaultBuilder)
    (ht : s.tokens = lex cc cs.text) : ∃ p, Yields ⟨some s⟩ (cs.ast.map .ok) p ∧ p.next.1 = .ok none := by
  induction hn : s.rest.length using Nat.strongRecOn generalizing cs s with
  | ind n ih =>
  cases cs with
  | cnil =>
    have e : lex cc Syn.cnil.text = [] := lex_nil
    rw [e] at ht
    have := C31_parser_accepts_grammar .completeCommand trivial s none [] () (by
      show Reads (B := DefaultBuilder) .top _ s.tokens none [] _
      rw [ht]
      exact .topNone (.nil (.refl (by simp [Gram.NoBlank])) (by intro r; simp)))
    refine ⟨_, .nil, ?_⟩
    have h1 := this.1
    change (run completeCommand s).1 = _ at h1
    unfold ParserIterator.next
    simp only
    generalize run completeCommand s = z at h1
    obtain ⟨z, s'⟩ := z
    cases h1
    rfl
  | ccons c cs =>
    obtain ⟨h1, h2⟩ := round_claim hs hl c h.1 cs.text
    have e : (Syn.ccons c cs).text = c.text ++ cs.text := rfl
    rw [e] at ht
    have := C31_parser_accepts_grammar .completeCommand trivial s (some c.ast) (lex cc cs.text) () (by
      show Reads (B := DefaultBuilder) .top _ s.tokens (some c.ast) (lex cc cs.text) _
      rw [ht]
      exact .topCommand h2.lines h2.not_nil (h1 []))
    obtain ⟨g1, g2, g3⟩ := this
    have hc := C15_command_consumes s (Method.completeCommand.run s).2 c.ast (by rw [← g1])
    obtain ⟨p, k1, k2⟩ := ih _ (by omega) cs h.2 _ g2 rfl
    refine ⟨p, .cons ?_ k1, k2⟩
    change (run completeCommand s).1 = _ at g1
    change ParserIterator.next _ = (_, ⟨some (run completeCommand s).2⟩)
    unfold ParserIterator.next
    simp only
    generalize run completeCommand s = z at g1
    obtain ⟨z, s'⟩ := z
    cases g1
    rfl

/-- **C39.** A program that is written down is read back: iterating over the parser of its text yields
exactly its commands, without an error, and then ends. -/
theorem C39_round_trip (cc : CharClass) (hs : cc.Sane) (hl : Latin cc) (cs : Syn .commands) (h : cs.Ok cc false) :
    ∃ p, Yields ⟨some (PSt.new (B := DefaultBuilder) (lex cc cs.text) ())⟩ (cs.ast.map .ok) p ∧ p.next.1 = .ok none := by
  exact round_yields hs hl cs h _ (parserOn_rest (B := DefaultBuilder) (lex cc cs.text) ())

/-- **C39.** The text of a program determines the trees. -/
theorem C39_text_determines_trees (cc : CharClass) (hs : cc.Sane) (hl : Latin cc) (cs cs' : Syn .commands) (h : cs.Ok cc false)
    (h' : cs'.Ok cc false) (ht : cs.text = cs'.text) : cs.ast = cs'.ast := by
  have a := C39_round_trip cc hs hl cs h
  have b := C39_round_trip cc hs hl cs' h'
  rw [ht] at a
  obtain ⟨p, a1, a2⟩ := a
  obtain ⟨q, b1, b2⟩ := b
  have key : ∀ {r : ParserIterator CIter DefaultBuilder} {xs ys p q}, Yields r xs p → Yields r ys q → p.next.1 = .ok none →
      q.next.1 = .ok none → xs = ys := by
    intro r xs ys p q h1 h2 hp hq
    induction h1 generalizing ys with
    | nil =>
      cases h2 with
      | nil => rfl
      | cons h => rw [h] at hp; cases hp
    | cons h _ ih =>
      cases h2 with
      | nil => rw [h] at hq; cases hq
      | cons g g' =>
        rw [h] at g
        cases g
        rw [ih g' hp]
  exact List.map_injective_iff.2 (fun a b h => by cases h; rfl) (key a1 b1 a2 b2)

/-- **C39.** A word that is written down and followed by a blank is read back by `word`. -/
theorem C39_word_round_trip (cc : CharClass) (hs : cc.Sane) (hl : Latin cc) (w : Syn .parts) (h : w.Ok cc false) (hw : w.IsWord)
    (rest : Str) (hr : Gram.NoBlank (lex cc rest)) :
    Parses (B := DefaultBuilder) .word (parserOn (lex cc (w.text ++ ' ' :: rest)) ()) (some (wordAst w.ast)) (lex cc rest) () := by
  refine C31_parser_accepts_grammar .word trivial _ _ _ _ ?_
  show Reads (B := DefaultBuilder) .word _ _ _ _ _
  rw [PSt.tokens, parserOn_rest]
  exact word_read hs hw h (round_claim hs hl w h) hr

/-- **C39.** An expansion that is written down is read back by `parameter`, whatever follows it. -/
theorem C39_expansion_round_trip (cc : CharClass) (hs : cc.Sane) (hl : Latin cc) (e : Syn .exp) (h : e.Ok cc false) (rest : Str) :
    Parses (B := DefaultBuilder) .parameter (parserOn (lex cc (e.text ++ rest)) ()) (wordAst [.Simple e.ast]) (lex cc rest) () := by
  obtain ⟨k, l, h1, h2, h3, -⟩ := round_claim hs hl e h rest
  refine C31_parser_accepts_grammar .parameter trivial _ _ _ _ ?_
  show ∃ w b1, Reads (B := DefaultBuilder) .param _ _ _ _ _ ∧ _
  rw [PSt.tokens, parserOn_rest, h1]
  refine ⟨k, (), h2, ?_⟩
  have := word_of (ks := [.Simple k]) (by simp) (by simp)
  refine calls_word (this.trans ?_)
  rw [← h3]
  rfl

/-! ## An example -/

theorem ascii_latin : Latin ascii := by unfold Latin; decide

/-- One word as a command. -/
def oneWord (s : String) : Syn .args := .aword (.lit s.toList .nil) .anil

/-- `while ! test ${x:-$( a | b )} \n do case "${y}"~ in ( a* | ?b ) x=5 echo 'q'"$(( ( x + 1 ) ))" 2> f & ;; esac > out \n done &`,
with a few more blanks and newlines. -/
def exampleProgram : Syn .commands :=
  let inner : Syn .commands := .ccons (.command false (.pipeline false (.into (.simple .pnil (oneWord "a"))
    (.last (.simple .pnil (oneWord "b"))))) .restNil) .cnil
  let guard : Syn .commands := .ccons (.command false (.pipeline true (.last (.simple .pnil
    (.aword (.lit "test".toList .nil) (.aword (.exp (.subst (.default true) (.Var "x".toList) (.exp (.cmdSubst inner) .nil)) .nil) .anil)))))
      .restNil) .cnil
  let echo : Syn .commands := .ccons (.command true (.pipeline false (.last (.simple (.passign "x".toList (.lit "5".toList .nil) .pnil)
    (.aword (.lit "echo".toList .nil) (.aword (.single "q".toList (.double (.dexp (.arith (.Add (.Var "x".toList) (.Literal 1))) .dnil) .nil))
      (.aredir (.file (some 2) .write (.lit "f".toList .nil)) .anil)))))) .restNil) .cnil
  let body : Syn .commands := .ccons (.command false (.pipeline false (.last (.compound
    (.case_ (.double (.dexp (.param (.Var "y".toList)) .dnil) (.glob .tilde .nil))
      (.armsCons (.patCons (.lit "a".toList (.glob .star .nil)) (.patLast (.glob .question (.lit "b".toList .nil)))) echo .armsNil)
      (.rcons (.file none .write (.lit "out".toList .nil)) .rnil))))) .restNil) .cnil
  .ccons (.command true (.pipeline false (.last (.compound (.loop .While guard body .rnil)))) .restNil) .cnil

example : exampleProgram.text =
    "while ! test ${x:-$( a | b \n)} \ndo case \"${y}\"~ in\n( a* | ?b ) x=5 echo 'q'\"$(( ( x + 1 ) ))\" 2> f &\n;;\nesac > out \ndone &\n".toList := by
  decide +kernel

/-- The example satisfies the conditions. -/
theorem example_ok : exampleProgram.Ok ascii false := by
  have hlit : ∀ s ∈ ["a", "b", "test", "5", "echo", "f", "out"], LitText ascii s.toList := by
    unfold LitText Plain opStart; decide
  have hname : ∀ s ∈ ["x", "y"], Shape ascii (.Name s.toList) := by
    intro s hs
    rw [List.mem_cons, List.mem_singleton] at hs
    rcases hs with rfl | rfl <;> exact ⟨_, _, rfl, by decide, by decide⟩
  have harith : ArithOk ascii (.Add (.Var "x".toList) (.Literal 1)) :=
    .bin (by simp) (.var (hname _ (by decide))) (.literal (by decide) (by decide))
  simp only [exampleProgram, oneWord, Ok_param, Ok_len, Ok_subst, Ok_cmdSubst, Ok_arith, Ok_dnil, Ok_dtext, Ok_desc, Ok_dexp, Ok_nil, Ok_lit, Ok_esc, Ok_glob, Ok_single, Ok_double, Ok_exp, Ok_wnil, Ok_wcons, Ok_file, Ok_dup, Ok_close, Ok_rnil, Ok_rcons, Ok_pnil, Ok_passign, Ok_predir, Ok_anil, Ok_aword, Ok_aredir, Ok_brace, Ok_subshell, Ok_loop, Ok_if, Ok_forIn, Ok_forArgs, Ok_case, Ok_fi, Ok_else, Ok_elif, Ok_patLast, Ok_patCons, Ok_armsNil, Ok_armsCons, Ok_simple, Ok_compound, Ok_function, Ok_last, Ok_into, Ok_pipeline, Ok_restNil, Ok_and, Ok_or, Ok_command, Ok_cnil, Ok_ccons, and_true, true_and]
  have hvp : ∀ s ∈ ["x", "y"], ValidParam ascii (.Var s.toList) := hname
  and_intros <;>
    first
    | exact hlit _ (by decide)
    | exact hname _ (by decide)
    | exact hvp _ (by decide)
    | exact harith
    | trivial
    | decide
    | (unfold Plain opStart; decide)
    | (rw [noQuote_dexp, Syn.noQuote])
    | simp [Syn.IsWord, Syn.isNil, Syn.firstChar, Syn.StartsWord, Syn.NonEmpty, Syn.IsCommandWord, Syn.joint, SubstOp.Fits, Syn.noCommands, reservedWords, CASE, DO, DONE, ELIF, ELSE, ESAC, FI, FOR, FUNCTION, IF, THEN, UNTIL, WHILE]

end
end Conch
