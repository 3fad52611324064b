import Verif.TextTree
import Verif.PropsLocal
import Mathlib.Data.List.Perm.Subperm
/-!
# Property C54: the trees hold only text of the source, and none of it twice

`Spec.Txt` (TextSpec.lean) is the text of a tree: all its strings, in order.
-/
namespace Conch
open Spec Gram

/-- The commands among the items of an iterator. -/
def Spec.commandsOf {B : Builder} : List (Except (ParseError B.Error) B.Command) → List B.Command
  | [] => []
  | .ok c :: xs => c :: commandsOf xs
  | .error _ :: xs => commandsOf xs

/-- Being part of it, in order. -/
def inOrder : TextOrd where
  R := List.Sublist
  trans := List.Sublist.trans
  sub := id
  app := List.Sublist.append

/-- Being part of it, in any order. -/
def anyOrder : TextOrd where
  R := List.Subperm
  trans := List.Subperm.trans
  sub := List.Sublist.subperm
  app := fun h h' => (List.subperm_append_right _ |>.2 h).trans (List.subperm_append_left _ |>.2 h')

theorem free_any (l : List Token) : Free anyOrder l :=
  fun h => absurd (fun a b => (List.perm_append_comm (l₁ := a) (l₂ := b)).subperm) h

theorem top_text {O : TextOrd} {b : DefaultBuilder.State} {l : List Token} {c : TopLevelCommand Str} {r b'}
    (h : Reads (B := DefaultBuilder) .top b l (some c) r b') (hl : Free O l) :
    O.R (Txt.commandText c ++ concatTokens r) (concatTokens l) := reads_text h hl

theorem yields_text {O : TextOrd} {p p' : ParserIterator CIter DefaultBuilder} {xs}
    (h : Yields p xs p') : ∀ s, p = ⟨some s⟩ → Free O s.tokens →
      O.R (Txt.commandsText (commandsOf xs)) (concatTokens s.tokens) := by
  have dead : ∀ {p p' : ParserIterator CIter DefaultBuilder} {xs}, Yields p xs p' → p = ⟨none⟩ → xs = [] := by
    intro p p' xs h hp
    cases h with
    | nil => rfl
    | cons h _ => subst hp; simp [ParserIterator.next] at h
  induction h with
  | nil => intro s _ _; exact O.sub (List.nil_sublist _)
  | @cons p x p' xs p'' h1 h2 ih =>
    rintro s rfl hf
    cases x with
    | ok c =>
      obtain ⟨s', rfl, h3⟩ := of_next_some h1
      have h4 := top_iff.1 h3
      have h5 := top_text h4 hf
      have h6 := ih s' rfl (free_part h4.part hf)
      exact O.trans (O.app (O.refl _) h6) h5
    | error e =>
      have h3 : p' = ⟨none⟩ := by
        unfold ParserIterator.next at h1
        simp only at h1
        split at h1 <;> simp at h1
        exact h1.2.symm
      rw [dead h2 h3]
      exact O.sub (List.nil_sublist _)

/-- The characters of the text of the commands a parser yields, before an error or the end, are
characters of the source, each of them at most as often as in the source. -/
theorem C54_no_text_twice (cc : CharClass) (src : Str) (xs) (p : ParserIterator CIter DefaultBuilder)
    (h : Yields ⟨some (PSt.new (lex cc src) ())⟩ xs p) :
    List.Subperm (Txt.commandsText (commandsOf xs)) src := by
  have ht : (PSt.new (B := DefaultBuilder) (lex cc src) ()).tokens = lex cc src := parserOn_rest _ _
  have := yields_text (O := anyOrder) h _ rfl (free_any _)
  rwa [ht, C01_concat_tokens] at this

/-- Counting a single character. -/
theorem C54_count (cc : CharClass) (src : Str) (xs) (p : ParserIterator CIter DefaultBuilder)
    (h : Yields ⟨some (PSt.new (lex cc src) ())⟩ xs p) (c : Char) :
    (Txt.commandsText (commandsOf xs)).count c ≤ src.count c :=
  (C54_no_text_twice cc src xs p h).count_le c

theorem no_here {cc : CharClass} {src : Str} (hn : ¬ ['<', '<'] <:+: src) : ∀ t ∈ lex cc src, t ≠ .DLess ∧ t ≠ .DLessDash := by
  intro t ht
  obtain ⟨u, v, e⟩ := List.append_of_mem ht
  have h1 := C01_concat_tokens cc src
  rw [e, concat_app, concat_cons] at h1
  constructor
  · rintro rfl; exact hn ⟨concatTokens u, concatTokens v, by rw [← h1]; simp [Token.asStr]⟩
  · rintro rfl; exact hn ⟨concatTokens u, '-' :: concatTokens v, by rw [← h1]; simp [Token.asStr]⟩

/-- If `<<` does not occur in the source, so that there are no here-documents, then it is also in
the order of the source: it can be had by deleting characters. -/
theorem C54_text_in_order (cc : CharClass) (src : Str) (hn : ¬ ['<', '<'] <:+: src) (xs)
    (p : ParserIterator CIter DefaultBuilder) (h : Yields ⟨some (PSt.new (lex cc src) ())⟩ xs p) :
    List.Sublist (Txt.commandsText (commandsOf xs)) src := by
  have ht : (PSt.new (B := DefaultBuilder) (lex cc src) ()).tokens = lex cc src := parserOn_rest _ _
  have := yields_text (O := inOrder) h _ rfl (by rw [ht]; exact fun _ => no_here hn)
  rwa [ht, C01_concat_tokens] at this

/-- One call of `complete_command`, on any parser: the text of the command and what is left to
read do not overlap. -/
theorem C54_command (s : PSt CIter DefaultBuilder) (c : TopLevelCommand Str) (r b')
    (h : Parses .completeCommand s (some c) r b') :
    List.Subperm (Txt.commandText c ++ concatTokens r) (concatTokens s.tokens) :=
  top_text (O := anyOrder) (top_iff.1 h) (free_any _)

/-- The same for `word`; here-documents of commands in substitutions aside, the order is that of
the source. -/
theorem C54_word (s : PSt CIter DefaultBuilder) (w : TopLevelWord Str) (r b')
    (h : Parses .word s (some w) r b') :
    List.Subperm (Txt.wordText w ++ concatTokens r) (concatTokens s.tokens) ∧
    ((∀ t ∈ s.tokens, t ≠ .DLess ∧ t ≠ .DLessDash) →
      List.Sublist (Txt.wordText w ++ concatTokens r) (concatTokens s.tokens)) := by
  have h1 : Reads (B := DefaultBuilder) .word s.b s.tokens (some w) r b' :=
    (C31_parser_exact .word trivial s (some w) r b').1 h
  exact ⟨reads_text (O := anyOrder) h1 (free_any _), fun hn => reads_text (O := inOrder) h1 (fun _ => hn)⟩

/-- The text of the trees of a script. -/
def scriptText (src : String) : Option Str :=
  (script 10 ⟨some (PSt.new (B := DefaultBuilder) (lex ascii src.toList) ())⟩).map Txt.commandsText

theorem scriptText_sound {src : String} {t : Str} (h : scriptText src = some t) :
    ∃ cs, ParsesTo ascii src.toList cs ∧ Txt.commandsText cs = t := by
  obtain ⟨cs, h1, h2⟩ := Option.map_eq_some_iff.1 h
  exact ⟨cs, script_sound h1, h2⟩

theorem commandsOf_ok {B : Builder} (cs : List B.Command) : commandsOf (cs.map .ok) = cs := by
  induction cs with
  | nil => rfl
  | cons c cs ih => simp [commandsOf, ih]

/-- For a whole script. -/
theorem C54_script (cc : CharClass) (src : Str) (cs : List (TopLevelCommand Str)) (h : ParsesTo cc src cs) :
    List.Subperm (Txt.commandsText cs) src ∧
    (¬ ['<', '<'] <:+: src → List.Sublist (Txt.commandsText cs) src) := by
  obtain ⟨p, h1, -⟩ := h
  have h2 := C54_no_text_twice cc src _ p h1
  have h3 := fun hn => C54_text_in_order cc src hn _ p h1
  rw [commandsOf_ok] at h2 h3
  exact ⟨h2, h3⟩

/-- A script, and what is left of it. -/
example : ∃ cs, ParsesTo ascii "v='a b' f -x \\\" \"$y z\" >o; for i in *; do ${q%.c}; done # c".toList cs ∧
    Txt.commandsText cs = "va bf-x\"y zoi*q.c".toList :=
  scriptText_sound (by decide +kernel)

/-- The body of a here-document comes before what follows the operator in its line: the order is
not kept. -/
theorem C54_order_needs_no_heredoc : ∃ cs, ParsesTo ascii "cat <<E x\nb\nE\n".toList cs ∧
    Txt.commandsText cs = "catb\nx".toList ∧ ¬ List.Sublist (Txt.commandsText cs) "cat <<E x\nb\nE\n".toList := by
  obtain ⟨cs, h1, h2⟩ := scriptText_sound (src := "cat <<E x\nb\nE\n") (t := "catb\nx".toList) (by decide +kernel)
  refine ⟨cs, h1, h2, ?_⟩
  rw [h2]
  decide +kernel

/-- The variables that `x += e` holds: the one it assigns to and the first of its operand. -/
def assignedTwice : List (TopLevelCommand Str) → Option (Str × Str)
  | [.mk (.List ⟨.Single (.Simple ⟨[], [.CmdWord (.mk (.Single (.Simple (.Subst (.Arith (some
      (.Assign x (.Add (.Var y) (.Literal 1)))))))))]⟩), []⟩)] => some (x, y)
  | _ => none

/-- The variable on the left of an assignment is not counted, for `ab += 1` holds it twice. -/
theorem C54_assigned_variable_twice : ∃ cs, ParsesTo ascii "$((ab+=1))".toList cs ∧
    assignedTwice cs = some ("ab".toList, "ab".toList) ∧ Txt.commandsText cs = "ab".toList := by
  have key : (script 10 ⟨some (PSt.new (B := DefaultBuilder) (lex ascii "$((ab+=1))".toList) ())⟩).map
      (fun cs => (assignedTwice cs, Txt.commandsText cs)) = some (some ("ab".toList, "ab".toList), "ab".toList) := by
    decide +kernel
  obtain ⟨cs, h1, h2⟩ := Option.map_eq_some_iff.1 key
  exact ⟨cs, script_sound h1, congrArg Prod.fst h2, congrArg Prod.snd h2⟩

end Conch
