import Verif.GivenTree
import Verif.PropsText
/-!
# C59: no name and no text is lost

Given.lean has the specification: a builder that collects every string it is given, in order, and
the text `keep` of the tokens that must be among them.
-/
namespace Conch
open Spec Gram
open Spec.Given (keep kept texts nl nls optNl numeric reserved)

/-- Only `complete_command` calls `comments`. -/
theorem reads_state {n : NT} {b l a r b'} (h : Reads (B := texts) n b l a r b') : n ≠ .top → b' = b := by
  have call : ∀ {c : Call texts.toBTypes} {b a b'}, Gram.Calls (B := texts) c b a b' → (∀ ns, c ≠ .comments ns) → b' = b := by
    intro c b a b' h hc
    have : (texts.call c b).2 = b' := congrArg Prod.snd h
    rw [← this]
    cases c <;> first | rfl | exact absurd rfl (hc _)
  induction h with
  | topCommand | topNone | topComments => exact fun h => absurd rfl h
  | _ =>
    intro _
    try simp only [ne_eq, reduceCtorEq, not_false_eq_true, forall_const] at *
    try grind

theorem top_given {b b' : texts.State} {l r : List Token} {a : NT.Res texts .top} (h : Reads (B := texts) .top b l a r b')
    (hl : Plainly l) : ∃ x, b' = b ++ x ∧ List.Sublist (keep l) (Given.returned .completeCommand a ++ x ++ keep r) := by
  cases h with
  | @topCommand _ _ ns l' c _ _ h1 h2 h3 =>
    refine ⟨[], by rw [reads_state h3 (by simp), List.append_nil], ?_⟩
    have h4 := reads_given h3 trivial (hl.part h1.part)
    exact (Holds.lines h1).prefix (h4.trans (by simp [gRes, Given.returned]))
  | topNone h1 => exact ⟨[], by simp, by simpa [Holds, nls, Given.returned] using Holds.lines h1⟩
  | @topComments _ _ ns _ h1 h2 h3 =>
    have : b ++ nls ns = b' := congrArg Prod.snd h3
    exact ⟨nls ns, this.symm, by simpa [Holds, Given.returned] using Holds.lines h1⟩

/-- **C59.** A method that returns has given every name and every literal it has read to the builder, or
returns it; and in the order of the source. -/
theorem C59_nothing_lost (m : Method) (hm : m.InGrammar) (s : PSt CIter texts) (a r b')
    (hh : ∀ t ∈ s.tokens, t ≠ .DLess ∧ t ≠ .DLessDash)
    (hc : (∀ t ∈ s.tokens, t ≠ .Pound) ∨ ∀ t ∈ s.tokens, t ≠ .Name "for".toList ∧ t ≠ .Literal "for".toList)
    (h : Parses m s a r b') :
    ∃ x, b' = s.b ++ x ∧ List.Sublist (keep s.tokens) (Given.returned m a ++ x ++ keep r) := by
  have hl : Plainly s.tokens := ⟨hh, hc⟩
  have hd := C31_parser_within_grammar m hm s a r b' h
  have done : ∀ {n : NT} {l : List Token} {x : n.Res texts} {r b'}, Reads n s.b l x r b' → Plainly l → n.Bare → n.prior = [] →
      n ≠ .top → b' = s.b ∧ Holds l (gRes n x) r :=
    fun h hl hb hp hn => ⟨reads_state h hn, GClaim.holds (reads_given h hb hl) hp⟩
  have fin : ∀ {x r b'}, b' = s.b ∧ Holds s.tokens x r →
      ∃ y, b' = s.b ++ y ∧ List.Sublist (keep s.tokens) (x ++ y ++ keep r) :=
    fun h => ⟨[], by simpa using h.1, by rw [List.append_nil]; exact h.2⟩
  cases m
  case completeCommand => exact top_given hd hl
  case andOrList => exact fin (done hd hl trivial rfl (by simp))
  case pipeline => exact fin (done hd hl trivial rfl (by simp))
  case command => exact fin (done hd hl trivial rfl (by simp))
  case simpleCommand => exact fin (done hd hl trivial rfl (by simp))
  case redirectList => exact fin (done hd hl trivial rfl (by simp))
  case redirect => exact fin (done hd hl trivial rfl (by simp))
  case redirectHeredoc => exact fin (done hd hl trivial rfl (by simp))
  case word => exact fin (done hd hl trivial rfl (by simp))
  case wordPreserveTrailingWhitespace => exact fin (done hd hl trivial rfl (by simp))
  case backtickedCommandSubstitution =>
    obtain ⟨w, b1, h1, h2⟩ := hd
    obtain ⟨rfl, h3⟩ := done h1 hl trivial rfl (by simp)
    have e := calls_texts h2 rfl
    have e' : s.b = b' := congrArg Prod.snd h2
    exact fin ⟨e'.symm, h3.of_eq (by rw [e]; rfl)⟩
  case parameter =>
    obtain ⟨w, b1, h1, h2⟩ := hd
    obtain ⟨rfl, h3⟩ := done h1 hl trivial rfl (by simp)
    have e := calls_texts h2 rfl
    have e' : s.b = b' := congrArg Prod.snd h2
    exact fin ⟨e'.symm, h3.of_eq (by rw [e]; rfl)⟩
  case doGroup => exact fin (done hd hl trivial rfl (by simp))
  case braceGroup => exact fin (done hd hl trivial rfl (by simp))
  case subshell => exact fin (done hd hl trivial rfl (by simp))
  case compoundCommand =>
    obtain ⟨l', kw, h1, h2, h3⟩ := hd
    obtain ⟨h4, h5⟩ := done h3 (hl.part h1.part) trivial rfl (by simp)
    exact fin ⟨h4, (Holds.skip h1).trans h5⟩
  case loopCommand => exact fin (done hd hl trivial rfl (by simp))
  case ifCommand => exact fin (done hd hl trivial rfl (by simp))
  case forCommand => exact fin (done hd hl trivial rfl (by simp))
  case caseCommand => exact fin (done hd hl trivial rfl (by simp))
  case functionDeclaration => exact fin (done hd hl trivial rfl (by simp))
  case maybeFunctionDeclaration =>
    obtain ⟨l', h1, ⟨-, c, rfl, h2⟩ | ⟨-, rfl, rfl, rfl⟩⟩ := hd
    · obtain ⟨h4, h5⟩ := done h2 (hl.part h1.part) trivial rfl (by simp)
      exact fin ⟨h4, (Holds.skip h1).trans h5⟩
    · exact fin ⟨rfl, Holds.skip h1⟩
  case commandGroup => exact fin (done hd.1 hl trivial rfl (by simp))
  case skipWhitespace => exact fin ⟨hd.2, Holds.skip hd.1⟩
  case linebreak => exact fin ⟨hd.2, Holds.lines hd.1⟩
  case newline => exact fin ⟨hd.2, Holds.optLine hd.1⟩
  all_goals exact hm.elim

/-- For a whole script without here-documents, and without comments or without `for`: what the commands were given
holds every name and every literal; if only comments are left at the end, they hold the rest. -/
theorem C59_script (cc : CharClass) (src : Str) (hh : ¬ ['<', '<'] <:+: src)
    (hc : '#' ∉ src ∨ ¬ "for".toList <:+: src) (cs : List Str) (s : PSt CIter texts) (r b')
    (h : Yields ⟨some (PSt.new (B := texts) (lex cc src) [])⟩ (cs.map .ok) ⟨some s⟩)
    (he : Parses .completeCommand s none r b') :
    List.Sublist (keep (lex cc src)) (cs.flatten ++ b' ++ keep r) := by
  have hl : Plainly (lex cc src) := by
    refine ⟨no_here hh, ?_⟩
    have mem : ∀ t ∈ lex cc src, t.asStr <:+: src := by
      intro t ht
      obtain ⟨u, v, e⟩ := List.append_of_mem ht
      have h1 := C01_concat_tokens cc src
      rw [e, concat_app, concat_cons] at h1
      exact ⟨concatTokens u, concatTokens v, by rw [← h1]; simp⟩
    rcases hc with hc | hc
    · left
      rintro t ht rfl
      exact hc ((mem _ ht).subset (by simp [Token.asStr]))
    · right
      intro t ht
      constructor
      · rintro rfl; exact hc (mem _ ht)
      · rintro rfl; exact hc (mem _ ht)
  have key : ∀ (cs : List Str) (s0 : PSt CIter texts), Plainly s0.tokens → Yields ⟨some s0⟩ (cs.map .ok) ⟨some s⟩ →
      ∃ x, b' = s0.b ++ x ∧ List.Sublist (keep s0.tokens) (cs.flatten ++ x ++ keep r) := by
    intro cs
    induction cs with
    | nil =>
      intro s0 h0 hy
      cases hy
      exact top_given (top_iff.1 he) h0
    | cons c cs ih =>
      intro s0 h0 hy
      cases hy with
      | cons h1 h2 =>
        obtain ⟨s1, rfl, h3⟩ := of_next_some h1
        have h4 := top_iff.1 h3
        have hb : s1.b = s0.b := by
          cases h4 with
          | topCommand _ _ h => exact reads_state h (by simp)
        obtain ⟨y, hy, h5⟩ := top_given h4 h0
        obtain ⟨x, hx, h6⟩ := ih s1 (h0.part h4.part) h2
        refine ⟨x, by rw [hx, hb], h5.trans ?_⟩
        have : y = [] := by rw [hb] at hy; simpa using hy
        subst this
        simpa [Given.returned] using h6
  have ht : (PSt.new (B := texts) (lex cc src) []).tokens = lex cc src := parserOn_rest _ _
  obtain ⟨x, hx, h1⟩ := key cs _ (by rw [ht]; exact hl) h
  rw [ht] at h1
  rw [show b' = x from hx]
  exact h1

/-! ## Cases -/

/-- The commands a parser yields, if it comes to the end. -/
def collected : Nat → ParserIterator CIter texts → Option Str
  | 0, _ => none
  | n + 1, p => match p.next with
    | (.ok none, _) => some []
    | (.ok (some (.ok c)), p') => (collected n p').map (c ++ ·)
    | _ => none

/-- What the builder is given by a script. -/
def givenBy (src : String) : Option Str := collected 10 ⟨some (PSt.new (B := texts) (lex ascii src.toList) [])⟩

theorem collected_sound {n : Nat} {s0 : PSt CIter texts} {t : Str} (h : collected n ⟨some s0⟩ = some t) :
    ∃ (cs : List Str) (s : PSt CIter texts) (r : List Token) (b' : Str), Yields ⟨some s0⟩ (cs.map .ok) ⟨some s⟩ ∧ Parses .completeCommand s none r b' ∧ cs.flatten = t := by
  induction n generalizing s0 t with
  | zero => cases h
  | succ n ih =>
    unfold collected at h
    split at h
    · next h1 =>
      obtain ⟨r, b', h2⟩ := of_next_none (congrArg Prod.fst h1)
      exact ⟨[], s0, r, b', .nil, h2, by simpa using h⟩
    · next c p' h1 =>
      obtain ⟨s1, rfl, h3⟩ := of_next_some h1
      obtain ⟨t', h4, rfl⟩ := Option.map_eq_some_iff.1 h
      obtain ⟨cs, s, r, b', h5, h6, rfl⟩ := ih h4
      exact ⟨c :: cs, s, r, b', .cons h1 h5, h6, rfl⟩
    · cases h

/-- The hypotheses of `C59_script`, and what it says, for a script. -/
example : ∃ (cs : List Str) (s : PSt CIter texts) (r : List Token) (b' : Str), Yields ⟨some (PSt.new (B := texts) (lex ascii "f $x | g 'y' # c\n`h`; $((i + 1))\n#e".toList) [])⟩
      (cs.map .ok) ⟨some s⟩ ∧ Parses .completeCommand s none r b' ∧ cs.flatten = "fxgy# chi".toList ∧
      keep (lex ascii "f $x | g 'y' # c\n`h`; $((i + 1))\n#e".toList) = "fxgychie".toList ∧
      List.Sublist "fxgychie".toList ("fxgy# chi".toList ++ b' ++ keep r) := by
  obtain ⟨cs, s, r, b', h1, h2, h3⟩ := collected_sound (n := 10)
    (s0 := PSt.new (B := texts) (lex ascii "f $x | g 'y' # c\n`h`; $((i + 1))\n#e".toList) [])
    (t := "fxgy# chi".toList) (by decide +kernel)
  have e : keep (lex ascii "f $x | g 'y' # c\n`h`; $((i + 1))\n#e".toList) = "fxgychie".toList := by decide +kernel
  refine ⟨cs, s, r, b', h1, h2, h3, e, ?_⟩
  rw [← e, ← h3]
  exact C59_script ascii _ (by decide +kernel) (.inr (by decide +kernel)) cs s r b' h1 h2

example : givenBy "v='a b' f -x \\q \"$y z\" >o 2>&1; if [ ${q%.c} ]; then `g`; fi # end\nh() { while j; do k; done; }" =
    some "va bf-xqy zo1[q.c]g# endhjk".toList := by decide +kernel

example : keep (lex ascii "v='a b' f -x \\q \"$y z\" >o 2>&1; if [ ${q%.c} ]; then `g`; fi # end\nh() { while j; do k; done; }".toList) =
    "vabfxqyzoq.cgendhjk".toList := by decide +kernel

/-- Comments between the name of a `for` loop and a semicolon are lost (parse.rs:2013-2016): the hypothesis is needed. -/
theorem C59_for_comment_is_lost : givenBy "for x\n#c\n; do a; done" = some "xa".toList ∧
    keep (lex ascii "for x\n#c\n; do a; done".toList) = "xca".toList := by decide +kernel

/-- The delimiter of a here-document is not given. -/
theorem C59_delimiter_is_lost : givenBy "cat <<E\nb\nE\n" = some "catb\n".toList ∧
    keep (lex ascii "cat <<E\nb\nE\n".toList) = "catEbE".toList := by decide +kernel

end Conch
