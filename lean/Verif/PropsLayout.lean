import Verif.LayoutComp
import Verif.PropsLocal
/-!
# C47: every way of writing a program is read as that program
-/
namespace Conch
open Spec Gram

section
variable {cc : CharClass}

variable (cc) in
/-- The claim for each kind of part. -/
def LayoutClaim : (o : Bool) → (s : Srt) → Syn s → Str → Str → Prop
  | _, .exp, x, k, t => ExpW cc x k t
  | _, .dparts, x, k, t => DW cc x k t
  | _, .parts, x, k, t => PartsW cc x k t
  | _, .words, x, k, t => WordsW cc x k t
  | _, .redir, x, k, t => RedirW cc x k t
  | _, .redirs, x, k, t => RedirsW cc x k t
  | o, .pres, x, k, t => PresM cc o x k t
  | o, .args, x, k, t => ArgsM cc o x k t
  | _, .comp, x, k, t => CompW cc x k t
  | _, .cmd, x, k, t => CmdW cc x k t
  | _, .pipe, x, k, t => PipeW cc x k t
  | _, .listable, x, k, t => ListableW cc x k t
  | _, .rest, x, k, t => RestW cc x k t
  | _, .command, x, k, t => CommandW cc x k t
  | o, .commands, x, k, t => CommandsW cc o x k t
  | _, .ifs, x, k, t => IfsW cc x k t
  | _, .pats, x, k, t => PatsW cc x k t
  | _, .arms, x, k, t => ArmsW cc x k t

/-- All parts are read as they should be, however they are written. -/
theorem layout_claim (hs : cc.Sane) (hl : Latin cc) {o : Bool} {s : Srt} {x : Syn s} {k t : Str} (w : Writes cc o x k t) :
    x.Ok cc true → LayoutClaim cc o s x k t := by
  induction w with
  | braced => exact fun h => expW_braced hs _ h _
  | short hr => exact fun h => expW_short hs h hr
  | special hp => exact fun _ => expW_special hs hp
  | pid hr => exact fun _ => expW_pid hs hr
  | digit hn => exact fun _ => expW_digit hs hn
  | len => exact fun h => expW_len hs _ h _
  | subst w ih => exact fun h => expW_subst hs h.1 h.2.1 h.2.2.1 h.2.2.2 w (ih h.2.1)
  | cmdSubst _ hp ih => exact fun h => expW_cmdSubst hs (ih h) hp
  | backticks _ hc ih => exact fun h => expW_backticks hs (ih h) hc
  | arith => exact fun h => expW_arith hs _ h _
  | dnil => exact fun _ => dW_nil
  | dtext w ih => exact fun h => dW_text hs h.1 h.2.1 w (ih h.2.2)
  | desc _ ih => exact fun h => dW_esc h.1 (ih h.2)
  | dexp w _ ih1 ih2 => exact fun h => dW_exp w (ih1 h.1) (ih2 h.2)
  | nil => exact fun _ => partsW_nil
  | lit w ih => exact fun h => partsW_lit hs h.1 h.2.1 w (ih h.2.2)
  | esc _ ih => exact fun h => partsW_esc h.1 (ih h.2)
  | glob _ ih => exact fun h => partsW_glob hs (ih h)
  | single _ ih => exact fun h => partsW_single hs h.1 h.2.1 (ih h.2.2)
  | double _ _ ih1 ih2 => exact fun h => partsW_double h.1 (ih1 h.2.1) h.2.2.1 (ih2 h.2.2.2)
  | exp w _ ih1 ih2 => exact fun h => partsW_exp w (ih1 h.1) (ih2 h.2)
  | wnil => exact fun _ => wordsW_nil hs
  | wcons hg hn w _ ih1 ih2 => exact fun h => wordsW_cons hs hg hn w h.1 h.2.1 (ih1 h.2.1) (ih2 h.2.2)
  | file hg w ih => exact fun h => redirW_file hs h.1 hg w h.2.1 h.2.2 (ih h.2.2)
  | dup hg => exact fun h => redirW_dup hs h hg
  | close hg => exact fun h => redirW_close hs h hg
  | hereQuoted hg hq hd ht hx htail hp hl he => exact fun h => redirW_hereQuoted hs h.2 hg hq hd ht hx htail hp hl he
  | here hg hq hd ht hx htail hp hl he _ ih =>
    exact fun h => redirW_here hs h.2.1 hg hq hd ht hx htail hp hl he (ih h.2.2)
  | rnil => exact fun _ => redirsW_nil hs
  | rcons hg _ _ ih1 ih2 => exact fun h => redirsW_cons hs hg (ih1 h.1) (ih2 h.2)
  | pnil => exact fun _ => ⟨presW_nil, by simp⟩
  | passign hg w _ ih1 ih2 =>
    exact fun h => ⟨presW_assign hs hg h.1 h.2.1 w h.2.2.1 (ih1 h.2.2.1) (ih2 h.2.2.2).1, by simp⟩
  | predir hg w _ ih1 ih2 =>
    refine fun h => ⟨presW_redir hs hg (ih1 h.1) (ih2 h.2).1, ?_⟩
    rintro _ _ e
    cases e
    exact ⟨_, _, _, rfl, hg, w, ih1 h.1, (ih2 h.2).1⟩
  | anil => exact fun _ => ⟨argsW_nil hs, by simp⟩
  | aword hg w _ hn ih1 ih2 =>
    refine fun h => ⟨argsW_word hs hg w h.1 h.2.1 (ih1 h.2.1) (ih2 h.2.2).1 hn, ?_⟩
    rintro _ _ e
    cases e
    exact ⟨_, _, _, rfl, hg, w, ih1 h.2.1, (ih2 h.2.2).1, hn⟩
  | aredir hg _ _ ih1 ih2 => exact fun h => ⟨argsW_redir hs hg (ih1 h.1) (ih2 h.2).1, by simp⟩
  | brace _ hd _ ih1 ih2 => exact fun h => compW_brace hs h.1 (ih1 h.2.1) hd (ih2 h.2.2)
  | subshell _ _ ih1 ih2 => exact fun h => compW_subshell hs h.1 (ih1 h.2.1) (ih2 h.2.2)
  | loop _ hd _ hd' _ ih1 ih2 ih3 =>
    exact fun h => compW_loop hs hl h.1 h.2.1 (ih1 h.2.2.1) hd (ih2 h.2.2.2.1) hd' (ih3 h.2.2.2.2)
  | if_ _ hd _ ih1 ih2 => exact fun h => compW_if hs hl (ih1 h.1) hd (ih2 h.2)
  | forInSemi hg hn hla hld _ hg' hla' _ hd _ ih1 ih2 ih3 =>
    exact fun h => compW_forInSemi hs hl h.1 h.2.1 hg hn hla hld (ih1 h.2.2.1) hg' hla' (ih2 h.2.2.2.1) hd (ih3 h.2.2.2.2)
  | forInLine hg hn hla hld _ hg' hla' hnew _ hd _ ih1 ih2 ih3 =>
    exact fun h => compW_forInLine hs hl h.1 h.2.1 hg hn hla hld (ih1 h.2.2.1) hg' hla' hnew (ih2 h.2.2.2.1) hd (ih3 h.2.2.2.2)
  | forSemi hg hn hg' hla _ hd _ ih1 ih2 =>
    exact fun h => compW_forSemi hs hl h.1 h.2.1 hg hn hg' hla (ih1 h.2.2.1) hd (ih2 h.2.2.2)
  | forLine hg hn hla hld _ hd _ ih1 ih2 =>
    exact fun h => compW_forLine hs hl h.1 h.2.1 hg hn hla hld (ih1 h.2.2.1) hd (ih2 h.2.2.2)
  | case_ hg hn w hla hld _ hd _ ih1 ih2 ih3 =>
    exact fun h => compW_case hs hl h.1 h.2.1 hg hn w (ih1 h.2.1) hla hld (ih2 h.2.2.1) hd (ih3 h.2.2.2)
  | fi _ _ hd ih1 ih2 => exact fun h => ifsW_fi hs hl h.1 h.2.1 (ih1 h.2.2.1) (ih2 h.2.2.2) hd
  | else_ _ _ hd _ hd' ih1 ih2 ih3 =>
    exact fun h => ifsW_else hs hl h.1 h.2.1 h.2.2.1 (ih1 h.2.2.2.1) (ih2 h.2.2.2.2.1) hd (ih3 h.2.2.2.2.2) hd'
  | elif _ _ hd _ hd' ih1 ih2 ih3 =>
    exact fun h => ifsW_elif hs hl h.1 h.2.1 (ih1 h.2.2.1) (ih2 h.2.2.2.1) hd (ih3 h.2.2.2.2) hd'
  | patLast hg w hg' ih => exact fun h => patsW_last hs h.1 h.2 hg w (ih h.2) hg'
  | patCons hg w hg' _ ih1 ih2 => exact fun h => patsW_cons hs h.1 h.2.1 hg w (ih1 h.2.1) hg' (ih2 h.2.2)
  | armsNil hla => exact fun _ => armsW_nil hs hl hla
  | armsCons hla hp _ _ _ ih1 ih2 ih3 =>
    exact fun h => armsW_cons hs hl hla hp (ih1 h.1) (ih2 h.2.1) (ih3 h.2.2)
  | armsLast hla hp _ _ ih1 ih2 => exact fun h => armsW_last hs hl hla hp (ih1 h.1) (ih2 h.2.1)
  | simple w1 w2 ih1 ih2 =>
    exact fun h => cmdW_simple hs w1 w2 h.1 h.2.1 h.2.2.1 h.2.2.2 (ih1 h.2.2.1) (ih2 h.2.2.2)
  | compound _ ih => exact fun h => cmdW_compound (ih h)
  | function hw hg hla _ ih => exact fun h => cmdW_function hs h.1 h.2.1 hw hg hla (ih h.2.2)
  | functionKw hg hn hg' hg'' hla _ ih => exact fun h => cmdW_functionKw hs hl h.1 hg hn hg' hg'' hla (ih h.2.2)
  | functionBare hg hn hla hd _ hp ih => exact fun h => cmdW_functionBare hs hl h.1 hg hn hla hd (ih h.2.2) hp
  | last _ ih => exact fun h => pipeW_last (ih h)
  | into _ hg hla _ ih1 ih2 => exact fun h => pipeW_into hs (ih1 h.1) hg hla (ih2 h.2)
  | pipeline _ ih => exact fun h => listableW_pipeline (ih h)
  | bang hg hn _ ih => exact fun h => listableW_bang hs hg hn (ih h)
  | restNil => exact fun _ => restW_nil
  | and hg hla _ _ ih1 ih2 => exact fun h => restW_and hs hg hla (ih1 h.1) (ih2 h.2)
  | or hg hla _ _ ih1 ih2 => exact fun h => restW_or hs hg hla (ih1 h.1) (ih2 h.2)
  | command _ _ ih1 ih2 => exact fun h => commandW_one (ih1 h.1) (ih2 h.2)
  | cnil hla => exact fun _ => commandsW_nil hs hla
  | cend hla hx => exact fun _ => commandsW_end hs hla hx
  | semi hla _ hj hg _ hn ih1 ih2 => exact fun h => commandsW_semi hs hla (ih1 h.1) hj hg (ih2 h.2) hn
  | amp hla _ hj hg _ ih1 ih2 => exact fun h => commandsW_amp hs hla (ih1 h.1) hj hg (ih2 h.2)
  | line hla _ hj hg _ hn ih1 ih2 => exact fun h => commandsW_line hs hla (ih1 h.1) hj hg (ih2 h.2) hn
  | open_ hla _ hj hg ih => exact fun h => commandsW_open hs hla (ih h.1) hj hg

/-! ## Programs -/

theorem group_prog {B : Builder} (hB : ∀ ns (b : B.State), ∃ b', Gram.Calls (B := B) (.comments ns) b () b') {n : NT} {b b' : B.State}
    {l r : List Token} {a : n.Res B} (h : Reads (B := B) n b l a r b') :
    ∀ g : CommandGroup B.Command, n = .group noDelim → HEq a g → r = [] → Prog b l g.commands := by
  induction h with
  | @groupEnd b cfg l ns r h1 h2 =>
    rintro g e hg rfl
    cases e
    cases hg
    by_cases hns : ns = []
    · subst hns; exact .done (.topNone h1)
    · obtain ⟨b', hb⟩ := hB ns b
      exact .done (.topComments h1 hns hb)
  | groupCons h1 h2 h3 h4 _ _ ih =>
    rintro g e hg rfl
    cases e
    cases hg
    exact .cons (.topCommand h1 h3 h4) (ih _ rfl .rfl rfl)
  | _ => rintro g e; cases e

theorem layout_prog (hs : cc.Sane) (hl : Latin cc) {cs : Syn .commands} {t : Str} (h : cs.Ok cc true) (hw : Writes cc true cs [] t) :
    Prog (B := DefaultBuilder) () (lex cc t) cs.ast := by
  obtain ⟨ms, h1⟩ := (layout_claim hs hl hw h).2 noDelim ⟨by simp [noDelim], by simp [noDelim], by simp [noDelim]⟩
    ⟨by rw [lex_nil]; simp [Gram.NoBlank], by rw [lex_nil]; intro r; simp, .inr lex_nil⟩ (by simp) (fun _ => .inl rfl)
  rw [lex_nil] at h1
  exact group_prog (fun _ _ => ⟨(), rfl⟩) h1 _ rfl .rfl rfl

/-- **C47.** However a program is written, iterating over the parser of its text yields exactly its
commands, without an error, and then ends. -/
theorem C47_every_layout_is_read (cc : CharClass) (hs : cc.Sane) (hl : Latin cc) (cs : Syn .commands) (h : cs.Ok cc true) (t : Str)
    (hw : Writes cc true cs [] t) :
    ∃ p, Yields ⟨some (PSt.new (B := DefaultBuilder) (lex cc t) ())⟩ (cs.ast.map .ok) p ∧ p.next.1 = .ok none :=
  prog_yields (layout_prog hs hl h hw) _ (parserOn_rest (B := DefaultBuilder) (lex cc t) ()) rfl

theorem yields_unique {r : ParserIterator CIter DefaultBuilder} {xs ys p q} (h1 : Yields r xs p) (h2 : Yields r ys q) (hp : p.next.1 = .ok none)
    (hq : q.next.1 = .ok none) : xs = ys := by
  induction h1 generalizing ys with
  | nil =>
    cases h2 with
    | nil => rfl
    | cons h => rw [h] at hp; cases hp
  | cons h _ ih =>
    cases h2 with
    | nil => rw [h] at hq; cases hq
    | cons g g' =>
      rw [h] at g
      cases g
      rw [ih g' hp]

/-- **C47.** Texts that are ways of writing the same program cannot be told apart by what the parser
yields. -/
theorem C47_layout_changes_nothing (cc : CharClass) (hs : cc.Sane) (hl : Latin cc) (cs : Syn .commands) (h : cs.Ok cc true) (t t' : Str)
    (hw : Writes cc true cs [] t) (hw' : Writes cc true cs [] t') (xs) (p)
    (hy : Yields ⟨some (PSt.new (B := DefaultBuilder) (lex cc t) ())⟩ xs p) (hp : p.next.1 = .ok none) :
    ∃ q, Yields ⟨some (PSt.new (B := DefaultBuilder) (lex cc t') ())⟩ xs q ∧ q.next.1 = .ok none := by
  obtain ⟨p', h1, h2⟩ := C47_every_layout_is_read cc hs hl cs h t hw
  rw [yields_unique hy h1 hp h2]
  exact C47_every_layout_is_read cc hs hl cs h t' hw'

/-- **C47.** No text is a way of writing two programs with different trees. -/
theorem C47_text_determines_trees (cc : CharClass) (hs : cc.Sane) (hl : Latin cc) (cs cs' : Syn .commands) (h : cs.Ok cc true)
    (h' : cs'.Ok cc true) (t : Str) (hw : Writes cc true cs [] t) (hw' : Writes cc true cs' [] t) : cs.ast = cs'.ast := by
  obtain ⟨p, a1, a2⟩ := C47_every_layout_is_read cc hs hl cs h t hw
  obtain ⟨q, b1, b2⟩ := C47_every_layout_is_read cc hs hl cs' h' t hw'
  exact List.map_injective_iff.2 (fun a b h => by cases h; rfl) (yields_unique a1 b1 a2 b2)

/-! ## An example -/

/-- One word as a command. -/
def simpleWord (w : Syn .parts) : Syn .cmd := .simple .pnil (.aword w .anil)

def oneCommand (c : Syn .cmd) : Syn .commands := .ccons (.command false (.pipeline false (.last c)) .restNil) .cnil

def letter (s : String) : Syn .parts := .lit s.toList .nil

/-! The parts of the program of the next example. -/

def exGuard : Syn .commands := .ccons (.command false (.pipeline false (.last (simpleWord (letter "a"))))
  (.and (.pipeline true (.into (simpleWord (letter "b")) (.last (simpleWord (letter "c"))))) .restNil)) .cnil

def exEcho : Syn .cmd :=
  .simple .pnil (.aword (letter "echo") (.aredir (.file none .write (letter "f")) (.aredir (.dup (some 2) .write 1) .anil)))

def exLoop : Syn .comp := .forIn "x".toList (.wcons (.exp (.param (.Var "y".toList)) .nil)
  (.wcons (.double (.dexp (.param (.Positional 1)) .dnil) .nil) .wnil)) (oneCommand exEcho) .rnil

def exCase : Syn .comp := .case_ (.glob .tilde .nil) (.armsCons (.patLast (letter "a")) (oneCommand (simpleWord (letter "f")))
  (.armsCons (.patCons (letter "esac") (.patLast (.glob .star .nil))) (oneCommand (simpleWord (letter "g"))) .armsNil)) .rnil

def exThen : Syn .commands := .ccons (.command true (.pipeline false (.last (.compound exLoop))) .restNil) (oneCommand (.compound exCase))

def exElse : Syn .commands := oneCommand (.function "h".toList (.brace (oneCommand (.compound (.subshell
  (oneCommand (simpleWord (.exp (.cmdSubst (oneCommand (simpleWord (letter "x")))) .nil))) .rnil))) .rnil))

/-- The program of the next example. -/
def layoutExample : Syn .commands := oneCommand (.compound (.if_ (.else_ exGuard exThen exElse) .rnil))

theorem gap_space : Gap ascii [' '] := ⟨.blank (by unfold Spec.Blank; decide) .nil, by decide⟩

theorem writes_word {s : String} {k : Str} : Writes ascii false (letter s) k (s.toList ++ k) := .lit .nil

theorem writes_simple {w : Syn .parts} {k t : Str} (h : Writes ascii false w k t) (hr : ¬ StartsRedir k) :
    Writes ascii false (simpleWord w) k t :=
  .simple .pnil (.aword (g := []) ⟨gap_nil, fun _ => rfl, by simp [Syn.noPres]⟩ h .anil (fun h => absurd h hr))

theorem writes_command {c : Syn .cmd} {k t : Str} (h : Writes ascii false c k t) :
    Writes ascii false (.command false (.pipeline false (.last c)) .restNil) k t := .command (.pipeline (.last h)) .restNil

theorem delim_space {s : Str} : Delim ascii (' ' :: s) := ⟨_, _, rfl, .inl (by unfold Spec.Blank; decide)⟩

theorem delim_line {s : Str} : Delim ascii ('\n' :: s) := ⟨_, _, rfl, .inr (by decide)⟩

theorem layout_newline : Layout ascii ['\n'] := .newline gap_nil (.gap gap_nil)

theorem layout_space : Layout ascii [' '] := .gap gap_space

theorem layout_none : Layout ascii [] := .gap gap_nil

theorem writes_to {o : Bool} {s : Srt} {x : Syn s} {k t u : Str} (h : Writes ascii o x k t) (e : t = u) : Writes ascii o x k u := e ▸ h

theorem head_ne {c d : Char} {s : Str} (h : c ≠ d) : (c :: s).head? ≠ some d := by
  rintro e; cases e; exact h rfl

theorem not_redir {c : Char} {s : Str} (h : c ≠ '<' ∧ c ≠ '>') : ¬ StartsRedir (c :: s) := by
  rintro (e | e) <;> cases e
  · exact h.1 rfl
  · exact h.2 rfl

theorem guard_written (k : Str) (hk : k.head? ≠ some ';') : Writes ascii false exGuard k (' ' :: 'a' :: '&' :: '&' :: '!' :: ' ' :: 'b' :: '|' :: 'c' :: ';' :: k) :=
  .semi (l := [' ']) (g := []) layout_space (.command (.pipeline (.last (writes_simple (writes_word (s := "a")) (not_redir (by decide)))))
    (.and (g := []) (s := []) gap_nil layout_none (.bang (g := [' ']) gap_space (by decide)
      (.into (g := []) (l := []) (writes_simple (writes_word (s := "b")) (not_redir (by decide))) gap_nil layout_none
        (.last (writes_simple (writes_word (s := "c")) (not_redir (by decide)))))) .restNil)) rfl gap_nil (.cnil (l := []) layout_none) hk

theorem echo_written (k : Str) (hk : ¬ StartsRedir k) : Writes ascii false exEcho k ("echo>f 2>&1".toList ++ k) :=
  .simple .pnil (.aword (g := []) ⟨gap_nil, fun _ => rfl, by simp [Syn.noPres]⟩ writes_word
    (.aredir (g := []) ⟨gap_nil, by simp, fun _ => .inr (.inr rfl)⟩ (.file (g := []) gap_nil (writes_word (s := "f")))
      (.aredir (g := [' ']) ⟨gap_space, by simp, by simp⟩ (.dup (g := []) gap_nil) .anil)) (by intro _; decide))

theorem loop_written (k : Str) : Writes ascii false exLoop k ("for x in $y \"$1\";do echo>f 2>&1; done".toList ++ k) :=
  .forInSemi (g := [' ']) (l := [' ']) (g' := []) (l' := []) gap_space (by decide) layout_space delim_space
    (.wcons (g := [' ']) gap_space (by decide) (.exp (.short (by intro c hc; cases hc; decide)) .nil)
      (.wcons (g := [' ']) gap_space (by decide) (.double (.dexp (.digit (by decide)) .dnil) .nil) .wnil))
    gap_nil layout_none (.semi (l := [' ']) (g := []) layout_space (writes_command (echo_written _ (not_redir (by decide)))) rfl gap_nil
      (.cnil (l := [' ']) layout_space) (head_ne (c := ' ') (by decide))) delim_space .rnil

theorem case_written (k : Str) : Writes ascii false exCase k ("case ~ in a) f;; (esac|*)g;esac".toList ++ k) :=
  .case_ (g := [' ']) (l := [' ']) gap_space (by decide) (.glob .nil) layout_space delim_space
    (.armsCons (l := [' ']) layout_space (.inr ⟨rfl, rfl⟩) (.patLast (g := []) (g' := []) gap_nil (writes_word (s := "a")) gap_nil)
      (.open_ (l := [' ']) (g := []) layout_space (writes_command (writes_simple (writes_word (s := "f")) (not_redir (by decide)))) rfl gap_nil)
      (.armsLast (l := [' ']) layout_space (.inl rfl) (.patCons (g := []) (g' := []) gap_nil (writes_word (s := "esac")) gap_nil
        (.patLast (g := []) (g' := []) gap_nil (.glob .nil) gap_nil))
        (.semi (l := []) (g := []) layout_none (writes_command (writes_simple (writes_word (s := "g")) (not_redir (by decide)))) rfl gap_nil
          (.cnil (l := []) layout_none) (head_ne (c := 'e') (by decide)))))
    delim_space .rnil

theorem then_written (k : Str) : Writes ascii false exThen k
    ("\n for x in $y \"$1\";do echo>f 2>&1; done&\ncase ~ in a) f;; (esac|*)g;esac\n".toList ++ k) :=
  .amp (l := ['\n', ' ']) (g := []) (.newline gap_nil layout_space) (.command (.pipeline (.last (.compound (loop_written _)))) .restNil) rfl gap_nil
    (.line (l := ['\n']) (g := []) layout_newline (writes_command (.compound (case_written _))) rfl gap_nil
      (.cnil (l := ['\n']) layout_newline) (.inl rfl))

theorem else_written (k : Str) : Writes ascii false exElse k (" function h\n{ (`x`) ; }\n".toList ++ k) :=
  .line (l := [' ']) (g := []) layout_space (writes_command (.functionBare (g := [' ']) (l := ['\n']) gap_space (by decide) layout_newline delim_line
    (.brace (.semi (l := [' ']) (g := [' ']) layout_space (writes_command (.compound (.subshell (.open_ (l := []) (g := []) layout_none
      (writes_command (writes_simple (.exp (.backticks (t := ['x']) (.open_ (l := []) (g := []) layout_none (writes_command (writes_simple
        (writes_word (s := "x")) (by simp [StartsRedir]))) rfl gap_nil) (by decide)) .nil) (not_redir (by decide)))) rfl gap_nil) .rnil)))
      rfl gap_space (.cnil (l := [' ']) layout_space) (head_ne (c := ' ') (by decide))) delim_space .rnil) (head_ne (c := '{') (by decide)))) rfl gap_nil
        (.cnil (l := ['\n']) layout_newline) (.inl rfl)

/-- A text that is far from how the printer writes the program. -/
def layoutText : Str :=
  "# a comment\nif a&&! b|c;then\n for x in $y \"$1\";do echo>f 2>&1; done&\ncase ~ in a) f;; (esac|*)g;esac\nelse function h\n{ (`x`) ; }\nfi".toList

theorem layout_example_written : Writes ascii true layoutExample [] layoutText :=
  writes_to (.open_ (.comment gap_nil (x := " a comment".toList) (by decide) layout_none)
    (writes_command (.compound
    (.if_ (.else_ (guard_written _ (by decide)) (then_written _) delim_line (else_written _) delim_space) delim_space .rnil))) rfl (g := []) gap_nil)
    (by decide +kernel)

theorem layout_example_ok : layoutExample.Ok ascii true := by
  have hlit : ∀ s ∈ ["a", "b", "c", "echo", "f", "g", "esac", "x"], LitText ascii s.toList := by
    unfold LitText Spec.Plain opStart; decide
  have hname : ∀ s ∈ ["x", "y", "h"], Shape ascii (.Name s.toList) := by
    intro s hs
    rw [List.mem_cons, List.mem_cons, List.mem_singleton] at hs
    rcases hs with rfl | rfl | rfl <;> exact ⟨_, _, rfl, by decide, by decide⟩
  simp only [layoutExample, exGuard, exEcho, exLoop, exCase, exThen, exElse, oneCommand, simpleWord, letter, Ok_param, Ok_cmdSubst, Ok_dnil, Ok_dexp, Ok_nil, Ok_lit, Ok_glob, Ok_double, Ok_exp, Ok_wnil, Ok_wcons, Ok_file, Ok_dup, Ok_rnil, Ok_pnil, Ok_anil, Ok_aword, Ok_aredir, Ok_brace, Ok_subshell, Ok_if, Ok_forIn, Ok_case, Ok_else, Ok_patLast, Ok_patCons, Ok_armsNil, Ok_armsCons, Ok_simple, Ok_compound, Ok_function, Ok_last, Ok_into, Ok_pipeline, Ok_restNil, Ok_and, Ok_command, Ok_cnil, Ok_ccons, and_true, true_and]
  have hvp : ∀ s ∈ ["x", "y"], ValidParam ascii (.Var s.toList) := fun s hs => hname s (by
    revert hs; simp only [List.mem_cons]; rintro (h | h | h) <;> simp_all)
  and_intros <;>
    first
    | exact hlit _ (by decide)
    | exact hname _ (by decide)
    | exact hvp _ (by decide)
    | trivial
    | decide
    | (unfold Spec.Plain opStart; decide)
    | (rw [noQuote_dexp, Syn.noQuote])
    | simp [Syn.IsWord, Syn.isNil, Syn.firstChar, Syn.StartsWord, Syn.NonEmpty, Syn.IsCommandWord, Syn.joint, Syn.noCommands, reservedWords, CASE, DO, DONE, ELIF, ELSE, ESAC, FI, FOR, FUNCTION, IF, THEN, UNTIL, WHILE, ValidParam]

/-- The example is read as the program, and it is not what the printer writes. -/
example : (∃ p, Yields ⟨some (PSt.new (B := DefaultBuilder) (lex ascii layoutText) ())⟩ (layoutExample.ast.map .ok) p ∧ p.next.1 = .ok none) ∧
    layoutText ≠ layoutExample.text :=
  ⟨C47_every_layout_is_read ascii ascii_sane ascii_latin _ layout_example_ok _ layout_example_written, by decide +kernel⟩

/-! ## An example with here-documents -/

def hereBody : Syn .dparts := .dtext "two ".toList (.dexp (.param (.Var "x".toList)) (.dtext " \"q\"\n".toList .dnil))

def hereCat : Syn .cmd := .simple .pnil (.aword (letter "cat") (.aredir (.hereQuoted none "one $x\n".toList)
  (.aredir (.file (some 2) .write (letter "f")) (.aredir (.here none hereBody) .anil))))

def hereExample : Syn .commands := .ccons (.command false (.pipeline false (.into hereCat (.last (simpleWord (letter "b"))))) .restNil)
  (oneCommand (simpleWord (letter "c")))

/-- Two here-documents start on one line; the first has a quoted delimiter with a blank in it, the tabs of
the second are removed, and the line goes on after both of them. -/
def hereExampleText : Str := "cat <<'E F' 2>f <<-X |b\none $x\nE F\n\ttwo $x \"q\"\n\tX\nc\n# end".toList

theorem spans_chars {s : Str} (h : ∀ c ∈ s, c ∉ "\n\\$`('\"".toList) : Spans '\n' s := by
  induction s with
  | nil => exact .nil
  | cons c s ih =>
    refine .char ?_ ?_ ?_ (ih fun d hd => h d (by simp [hd]))
    · intro e; exact h c (by simp) (by rw [e]; decide)
    · intro e; refine h c (by simp) ?_; clear h ih; revert c; decide
    · intro _ e; refine h c (by simp) ?_; clear h ih; revert c; decide

theorem hereBody_written : Writes ascii false hereBody [] "two $x \"q\"\n".toList :=
  .dtext (.dexp (.short (by intro c hc; cases hc; decide)) (.dtext .dnil))

theorem delimE : WritesDelim ascii true "E F".toList "'E F'".toList := .single (s := "E F".toList) (by decide) .nil

theorem delimX : WritesDelim ascii false "X".toList "X".toList := .bare (by unfold Bare; decide) .nil

/-- What is left after the second here-document. -/
def hereRest2 : Str := " |b\nc\n# end".toList

/-- What is left after the first here-document. -/
def hereRest1 : Str := " 2>f <<-X |b\n\ttwo $x \"q\"\n\tX\nc\n# end".toList

theorem here2_written : Writes ascii false (.here none hereBody) hereRest2 "<<-X |b\n\ttwo $x \"q\"\n\tX\nc\n# end".toList :=
  Writes.here (fd := none) (strip := true) (g := []) (d := "X".toList) (q := "X".toList) (tail := " |b".toList)
    (lines := [("\ttwo $x \"q\"".toList, "two $x \"q\"".toList)]) (text := "\tX\nc\n# end".toList) (last := []) (after := "c\n# end".toList)
    gap_nil delimX (by decide) (by decide) (by decide) (spans_chars (by decide)) (by decide)
    (by
      intro p hp
      rw [List.mem_singleton] at hp
      subst hp
      exact ⟨by decide, ⟨1, by decide, by decide⟩, by unfold DelimLine; decide⟩)
    (.delim (raw := "\tX".toList) (line := "X".toList) (by decide) ⟨1, by decide, by decide⟩ (.inl rfl)) hereBody_written

theorem here1_written : Writes ascii false (.hereQuoted none "one $x\n".toList) hereRest1
    "<<'E F' 2>f <<-X |b\none $x\nE F\n\ttwo $x \"q\"\n\tX\nc\n# end".toList :=
  Writes.hereQuoted (fd := none) (strip := false) (g := []) (d := "E F".toList) (q := "'E F'".toList) (tail := " 2>f <<-X |b".toList)
    (lines := [("one $x".toList, "one $x".toList)]) (text := "E F\n\ttwo $x \"q\"\n\tX\nc\n# end".toList) (last := [])
    (after := "\ttwo $x \"q\"\n\tX\nc\n# end".toList)
    gap_nil delimE (by decide) (by decide) (by decide) (spans_chars (by decide)) (by decide)
    (by
      intro p hp
      rw [List.mem_singleton] at hp
      subst hp
      exact ⟨by decide, rfl, by unfold DelimLine; decide⟩)
    (.delim (raw := "E F".toList) (line := "E F".toList) (by decide) rfl (.inl rfl))

theorem here_example_written : Writes ascii true hereExample [] hereExampleText := by
  refine writes_to (.line (l := []) (g := []) layout_none (.command (.pipeline (.into (g := [' ']) (l := [])
    (.simple .pnil (.aword (g := []) ⟨gap_nil, fun _ => rfl, by simp [Syn.noPres]⟩ writes_word
      (.aredir (g := [' ']) ⟨gap_space, by simp, by simp⟩ here1_written
        (.aredir (g := [' ']) (t := "2>f <<-X |b\n\ttwo $x \"q\"\n\tX\nc\n# end".toList) ⟨gap_space, by simp, by simp⟩ 
          (.file (fd := some 2) (op := .write) (g := []) gap_nil (writes_word (s := "f")))
          (.aredir (g := [' ']) ⟨gap_space, by simp, by simp⟩ here2_written .anil)))
      (fun _ => by decide))) gap_space layout_none
    (.last (writes_simple (writes_word (s := "b")) (not_redir (c := '\n') (by decide)))))) .restNil) rfl gap_nil
    (.line (l := ['\n']) (g := []) layout_newline (writes_command (writes_simple (writes_word (s := "c")) (not_redir (c := '\n') (by decide)))) rfl gap_nil
      (.cend (l := ['\n']) (x := " end".toList) layout_newline (by decide)) (.inl rfl)) (.inl rfl)) (by decide +kernel)

theorem here_example_ok : hereExample.Ok ascii true := by
  have hlit : ∀ s ∈ ["b", "c", "cat", "f"], LitText ascii s.toList := by
    unfold LitText Spec.Plain opStart; decide
  have hname : Shape ascii (.Name "x".toList) := ⟨_, _, rfl, by decide, by decide⟩
  have hx : ValidParam ascii (.Var "x".toList) := hname
  have hq : ∀ s ∈ ["two ", " \"q\"\n"], DqPlain s.toList := by unfold DqPlain; decide
  simp only [hereExample, hereCat, hereBody, oneCommand, simpleWord, letter, Ok_param, Ok_dnil, Ok_dexp, Ok_dtext, Ok_nil, Ok_lit, Ok_file, Ok_hereQuoted, Ok_here, Ok_pnil, Ok_anil, Ok_aword, Ok_aredir, Ok_simple, Ok_last, Ok_into, Ok_pipeline, Ok_restNil, Ok_command, Ok_cnil, Ok_ccons, and_true, true_and]
  and_intros <;>
    first
    | exact hlit _ (by decide)
    | exact hx
    | exact hq _ (by decide)
    | trivial
    | decide
    | (unfold Spec.Plain opStart; decide)
    | simp [Syn.IsWord, Syn.isNil, Syn.firstChar, Syn.StartsWord, Syn.NonEmpty, Syn.IsCommandWord, Syn.joint, Syn.startsText, Syn.noCommands, reservedWords, CASE, DO, DONE, ELIF, ELSE, ESAC, FI, FOR, FUNCTION, IF, THEN, UNTIL, WHILE, ValidParam]

/-- The example with here-documents is read as the program. -/
example : ∃ p, Yields ⟨some (PSt.new (B := DefaultBuilder) (lex ascii hereExampleText) ())⟩ (hereExample.ast.map .ok) p ∧ p.next.1 = .ok none :=
  C47_every_layout_is_read ascii ascii_sane ascii_latin _ here_example_ok _ here_example_written

/-! ## What is not a way of writing -/

/-- The word is a dollar sign followed by the first argument. -/
def isDollarThenFirst {ε : Type} : Res ε (Option (TopLevelWord Str)) → Bool
  | .ok (some ⟨.Concat [.Simple (.Literal ['$']), .Simple (.Param (.Positional 1))]⟩) => true
  | _ => false

/-- `$$1` is read as a dollar sign and the first argument, not as the process number and a `1`: this
is why `pid` may not be followed by a digit. -/
theorem C47_pid_before_digit :
    isDollarThenFirst (Method.word.run (PSt.new (I := CIter) (B := DefaultBuilder) (lex ascii "$$1".toList) ())).1 = true := by
  decide +kernel

/-- A simple command that consists of `if` and another word. -/
def isSimpleIf {ε : Type} : Res ε (Option (TopLevelCommand Str)) → Bool
  | .ok (some ⟨.List ⟨.Single (.Simple ⟨[], [.CmdWord ⟨.Single (.Simple (.Literal i))⟩, _]⟩), []⟩⟩) => i == "if".toList
  | _ => false

/-- `if` directly before an escaped newline is not a keyword: this is why a gap may not start with one. -/
theorem C47_keyword_before_escaped_newline :
    isSimpleIf (Method.completeCommand.run (PSt.new (I := CIter) (B := DefaultBuilder)
      (lex ascii "if\\\n a; then b; fi".toList) ())).1 = true := by
  decide +kernel

end
end Conch
