import Verif.GramErr
/-!
# C34: incomplete compound commands
-/
namespace Conch.Gram
open Conch

section
variable {B : Builder}

/-- `Missing ws l r`: after the blanks of `l` there is none of the words `ws`; `r` is what is there. -/
def Missing (ws : List Str) (l r : List Token) : Prop :=
  Skip l r ∧ ∀ w ∈ ws, ∀ r', ¬ Keyword w r r'

/-- `IfOpen b l kw r b'`: the tokens `l` after `if` (or `elif`) are guards and bodies, but where the
keyword `kw` should be there are only the tokens `r`. -/
inductive IfOpen : B.State → List Token → Str → List Token → B.State → Prop
  | noThen {b l g l1 b1 r} : Reads (.group (wordDelim [THEN])) b l g l1 b1 → g.commands ≠ [] →
      Missing [THEN] l1 r → IfOpen b l THEN r b1
  | noFi {b l g l1 b1 l2 t l3 b2 r} : Reads (.group (wordDelim [THEN])) b l g l1 b1 →
      g.commands ≠ [] → Kw THEN l1 l2 →
      Reads (.group (wordDelim [ELIF, ELSE, FI])) b1 l2 t l3 b2 → t.commands ≠ [] →
      Missing [ELIF, ELSE, FI] l3 r → IfOpen b l FI r b2
  | elseNoFi {b l g l1 b1 l2 t l3 b2 l4 e l5 b3 r} :
      Reads (.group (wordDelim [THEN])) b l g l1 b1 → g.commands ≠ [] → Kw THEN l1 l2 →
      Reads (.group (wordDelim [ELIF, ELSE, FI])) b1 l2 t l3 b2 → t.commands ≠ [] →
      Kw ELSE l3 l4 → Reads (.group (wordDelim [FI])) b2 l4 e l5 b3 → e.commands ≠ [] →
      Missing [FI] l5 r → IfOpen b l FI r b3
  | elif {b l g l1 b1 l2 t l3 b2 l4 kw r b3} :
      Reads (.group (wordDelim [THEN])) b l g l1 b1 → g.commands ≠ [] → Kw THEN l1 l2 →
      Reads (.group (wordDelim [ELIF, ELSE, FI])) b1 l2 t l3 b2 → t.commands ≠ [] →
      Kw ELIF l3 l4 → IfOpen b2 l4 kw r b3 → IfOpen b l kw r b3

/-- The patterns of a `case` arm end with the input. -/
inductive PatternsOpen : B.State → List Token → B.State → Prop
  | last {b l w b'} : Reads .word b l (some w) [] b' → PatternsOpen b l b'
  | cons {b l w l' b' b''} : Reads .word b l (some w) (.Pipe :: l') b' →
      PatternsOpen b' l' b'' → PatternsOpen b l b''

/-- The input ends in the patterns of a `case` arm. -/
inductive ArmsOpen : B.State → List Token → B.State → Prop
  | noPattern {b l pre l1} : Lines l pre l1 → l1 = [] ∨ l1 = [.ParenOpen] → ArmsOpen b l b
  | patterns {b l pre l1 l2 b'} : Lines l pre l1 → (∀ r, ¬ Keyword ESAC l1 r) →
      (l1 = .ParenOpen :: l2 ∨ l2 = l1 ∧ ∀ l', l1 ≠ .ParenOpen :: l') → PatternsOpen b l2 b' →
      ArmsOpen b l b'
  | cons {b l pre l1 l2 ps l3 b1 c l4 g l5 b2 ac l6 b3} : Lines l pre l1 →
      (∀ r, ¬ Keyword ESAC l1 r) → (l1 = .ParenOpen :: l2 ∨ l2 = l1 ∧ ∀ l', l1 ≠ .ParenOpen :: l') →
      Reads .patterns b l2 ps l3 b1 → OptLine l3 c l4 →
      Reads (.group armDelim) b1 l4 g (.DSemi :: l5) b2 → OptLine l5 ac l6 →
      ArmsOpen b2 l6 b3 → ArmsOpen b l b3

/-- `Incomplete m b l cmd kw r b'`: the construct that the method `m` reads, which starts with the
word `cmd`, is well formed up to the tokens `r`, where the keyword `kw` is missing. The guard of
`until` is reported like that of `while`. -/
inductive Incomplete : Method → B.State → List Token → Str → Str → List Token → B.State → Prop
  | doGroup {b l l1 g l2 b' r} : Kw DO l l1 → Reads (.group (wordDelim [DONE])) b l1 g l2 b' →
      g.commands ≠ [] → Missing [DONE] l2 r → Incomplete .doGroup b l DO DONE r b'
  | loop {b k l l1 g l2 b1 r} : Kw (loopWord k) l l1 →
      Reads (.group (wordDelim [DO])) b l1 g l2 b1 → g.commands ≠ [] →
      Missing [DO] l2 r → Incomplete .loopCommand b l WHILE DO r b1
  | ifCommand {b l l1 kw r b'} : Kw IF l l1 → IfOpen b l1 kw r b' →
      Incomplete .ifCommand b l IF kw r b'
  | forIn {b l l1 x l2 c l3 post r} : Kw FOR l l1 → Skip l1 (.Name x :: l2) → OptLine l2 c l3 →
      Lines l3 post r → (∀ w ∈ [IN, DO], ∀ r', ¬ Keyword w r r') → (∀ r', r ≠ .Semi :: r') →
      Incomplete .forCommand b l FOR IN r b
  | forDo {b l l1 x l2 c l3 post l4 ws pre l5 b1 r} : Kw FOR l l1 → Skip l1 (.Name x :: l2) →
      OptLine l2 c l3 → Lines l3 post l4 → Reads (.forWords post) b l4 (ws, pre) l5 b1 →
      Missing [DO] l5 r → Incomplete .forCommand b l FOR DO r b1
  | caseIn {b l l1 w l2 b1 post l3 r} : Kw CASE l l1 → Reads .word b l1 (some w) l2 b1 →
      Lines l2 post l3 → Missing [IN] l3 r → Incomplete .caseCommand b l CASE IN r b1
  | casePattern {b l l1 w l2 b1 post l3 l4 c l5 b2} : Kw CASE l l1 →
      Reads .word b l1 (some w) l2 b1 → Lines l2 post l3 → Kw IN l3 l4 → OptLine l4 c l5 →
      ArmsOpen b1 l5 b2 → Incomplete .caseCommand b l CASE ESAC [] b2
  | caseEsac {b l l1 w l2 b1 post l3 l4 c l5 as pre l6 b2 rem l7 r} : Kw CASE l l1 →
      Reads .word b l1 (some w) l2 b1 → Lines l2 post l3 → Kw IN l3 l4 → OptLine l4 c l5 →
      Reads .arms b1 l5 (as, pre) l6 b2 → Lines l6 rem l7 → Missing [ESAC] l7 r →
      Incomplete .caseCommand b l CASE ESAC r b2

end

section
variable {B : Builder} {R : Rec AIter B}

theorem FailsAt.missing {ws : List Str} {cmd start kw} {l r : List Token} {b : B.State} (hne : ws ≠ [])
    (h : Missing ws l r) : FailsAt (reservedWordOrIncomplete ws cmd start kw) l b
      (fun q => .IncompleteCmd cmd start kw q) r b := by
  unfold reservedWordOrIncomplete
  have : Run (reservedWord ws) l b none r b := by
    unfold reservedWord
    exact .bind (.peekNoWord hne h.1 h.2) .pure
  exact .bind this .failPos

/-- Reading a part of the construct. -/
theorem group_part {cfg : Conch.Delims} (hp : Delims.Proper cfg) {N : Nat} {b : B.State} {l g r b'}
    (h : Reads (.group cfg) b l g r b') (hN : l.length < N) :
    Run ((Rec.fix N).group cfg) l b g r b' := by
  obtain ⟨M, rfl⟩ : ∃ M, N = M + 1 := ⟨N - 1, by omega⟩
  exact group_run hp (complete h M (by simp only [NT.Fits]; omega))

theorem ifOpen_fails {b b' : B.State} {l r : List Token} {kw} (h : IfOpen b l kw r b') (N : Nat)
    (hN : l.length < N) (p : SourcePos) (acc) :
    LFails (ifBody (Rec.fix N) p) (fun q => .IncompleteCmd IF p kw q) acc l b r b' := by
  induction h generalizing acc with
  | noThen hg hgn hm =>
    refine .stop ?_
    unfold ifBody
    exact .bind (commandGroup_run (group_part (proper_word _) hg hN) hgn) (.left (.missing (by simp) hm))
  | noFi hg hgn h1 ht htn hm =>
    refine .stop ?_
    unfold ifBody
    refine .bind (commandGroup_run (group_part (proper_word _) hg hN) hgn) ?_
    refine .bind (.wordOrIncomplete (List.mem_singleton.2 rfl) h1) ?_
    have := hg.le
    have := h1.lt
    refine .bind (commandGroup_run (group_part (proper_word _) ht (by omega)) htn) ?_
    exact .left (.missing (by simp) hm)
  | elseNoFi hg hgn h1 ht htn h2 he hen hm =>
    refine .stop ?_
    unfold ifBody
    have := hg.le
    have := h1.lt
    have := ht.le
    have := h2.lt
    refine .bind (commandGroup_run (group_part (proper_word _) hg hN) hgn) ?_
    refine .bind (.wordOrIncomplete (List.mem_singleton.2 rfl) h1) ?_
    refine .bind (commandGroup_run (group_part (proper_word _) ht (by omega)) htn) ?_
    refine .bind (.wordOrIncomplete (by simp) h2) ?_
    rw [if_neg (by decide), if_pos (by decide)]
    refine .bind (commandGroup_run (group_part (proper_word _) he (by omega)) hen) ?_
    exact .left (.missing (by simp) hm)
  | elif hg hgn h1 ht htn h2 _ ih =>
    have := hg.le
    have := h1.lt
    have := ht.le
    have := h2.lt
    exact .cont (ifBody_elif (group_part (proper_word _) hg hN) hgn h1
      (group_part (proper_word _) ht (by omega)) htn h2) (by omega) (ih (by omega) _)

theorem missingEsac_fails {α : Type} {p} {l : List Token} {b : B.State} :
    FailsAt (missingEsac p : P AIter B α) l b (fun q => .IncompleteCmd CASE p ESAC q) l b := .failPos

theorem patternsOpen_fails {b b' : B.State} {l : List Token} (h : PatternsOpen b l b') (N : Nat)
    (hN : l.length ≤ N) (p : SourcePos) (acc) :
    LFails (patternBody (Rec.fix N) p) (fun q => .IncompleteCmd CASE p ESAC q) acc l b [] b' := by
  induction h generalizing acc with
  | last h =>
    refine .stop ?_
    unfold patternBody
    exact FailsAt.bind (complete h N hN) (.peek missingEsac_fails)
  | cons h _ ih =>
    have := h.len.2 (by simp)
    simp only [List.length_cons] at this
    exact .cont (pattern_cons (complete h N hN)) (by omega) (ih (by omega) _)

theorem PatternsOpen.ne {b b' : B.State} {l : List Token} (h : PatternsOpen b l b') : l ≠ [] := by
  rintro rfl
  cases h with
  | last h => have := h.len.2 (by simp); simp at this
  | cons h _ => have := h.len.2 (by simp); simp at this

theorem armsOpen_fails {b b' : B.State} {l : List Token} (h : ArmsOpen b l b') (N : Nat)
    (hN : l.length ≤ N) (p : SourcePos) (acc) :
    LFails (armBody (Rec.fix N) p) (fun q => .IncompleteCmd CASE p ESAC q) acc l b [] b' := by
  induction h generalizing acc with
  | noPattern h h1 =>
    refine .stop ?_
    unfold armBody
    refine .bind (.linebreak h) (.bind (.peekNoWord (by simp) (.refl h.noBlank) ?_) ?_)
    · rintro w - r hk
      rcases h1 with rfl | rfl <;> obtain ⟨t, ht⟩ := hk.cons
      · cases ht
      · obtain ⟨hk | hk, -⟩ := hk <;> cases hk
    rw [if_neg (by simp)]
    rcases h1 with rfl | rfl
    · exact FailsAt.eatNo (by simp) (.peek missingEsac_fails)
    · exact FailsAt.eatYes (.peek missingEsac_fails)
  | @patterns b l pre l1 l2 b' h hk hp hps =>
    have := h.le
    have hne := PatternsOpen.ne hps
    refine .stop ?_
    unfold armBody
    refine .bind (.linebreak h) (.bind (.peekNoWord (by simp) (.refl h.noBlank) ?_) ?_)
    · intro w hw; rw [List.mem_singleton] at hw; subst hw; exact hk
    rw [if_neg (by simp)]
    have hl : l2.length ≤ l1.length := by rcases hp with rfl | ⟨rfl, _⟩ <;> simp
    have hf := (patternsOpen_fails hps N (by omega) p []).fails
    obtain ⟨t, l2, rfl⟩ := List.exists_cons_of_ne_nil hne
    rcases hp with rfl | ⟨rfl, hp⟩
    · exact FailsAt.eatYes (.peek (.left hf))
    · exact FailsAt.eatNo hp (.peek (.left hf))
  | @cons b l pre l1 l2 ps l3 b1 c l4 g l5 b2 ac l6 b3 h hk hp hps hc hg hac _ ih =>
    have := h.le
    have := hps.len.2 trivial
    have := hc.le
    have := hg.le
    have := hac.le
    simp only [List.length_cons] at *
    have hl : l2.length ≤ l1.length := by rcases hp with rfl | ⟨rfl, _⟩ <;> simp
    refine .cont (arm_start h hk hp hps.patterns_ne (complete hps N (by simp only [NT.Fits]; omega) p []) hc
      (group_part proper_arm hg (by omega)) (.peekCons (Run.next (.bind (.newline hac) .pure)))) (by omega) ?_
    exact ih (by omega) _

end

section
variable {B : Builder}

/-- **C34.** When a construct lacks a keyword, its method fails with `IncompleteCmd`: the error names
the word that started the construct, the position where it started, the missing keyword, and the
position where it was expected; everything before has been read. -/
theorem _root_.Conch.C34_missing_keyword (m : Method) (s : PSt CIter B) (cmd kw : Str) (r : List Token) (b' : B.State)
    (h : Incomplete m s.b s.tokens cmd kw r b') :
    FailsWith m s (fun p q => .IncompleteCmd cmd p kw q) r b' := by
  apply failsWith_of
  generalize s.b = b at h
  generalize s.tokens = l at h
  cases h with
  | doGroup h hg hgn hm =>
    have := h.lt
    refine run_fails ?_
    unfold doGroup
    refine Fails.getPos fun p => .bind (.wordOrUnexpected (List.mem_singleton.2 rfl) h) ?_
    refine .bind (commandGroup_run (group_part (proper_word _) hg (by omega)) hgn) ?_
    exact .left (.missing (by simp) hm)
  | @loop b k l l1 g l2 b1 r h hg hgn hm =>
    have := h.lt
    refine run_fails ?_
    unfold loopCommand
    refine Fails.getPos fun p => .bind (.wordOrUnexpected (w := loopWord k) ?_ h) ?_
    · cases k <;> simp [loopWord]
    refine .bind (a := k) (r := l1) (b' := b) ?_
      (.bind (commandGroup_run (group_part (proper_word _) hg (by omega)) hgn) ?_)
    · cases k
      · rw [if_pos (by decide)]; exact .pure
      · rw [if_neg (by decide), if_pos (by decide)]; exact .pure
    · refine .bind (.peekNoWord (by simp) hm.1 hm.2) ?_
      rw [if_neg (by simp)]
      exact .failPos
  | ifCommand h hi =>
    have := h.lt
    refine run_fails ?_
    unfold ifCommand
    refine Fails.getPos fun p => .bind (.wordOrUnexpected (List.mem_singleton.2 rfl) h) ?_
    exact (ifOpen_fails hi _ (by omega) p []).fails
  | forIn h hs hc hl hm hsemi =>
    refine run_fails ?_
    unfold forCommand
    refine Fails.getPos fun p => .bind (.wordOrUnexpected (List.mem_singleton.2 rfl) h) ?_
    refine .bind (.skip hs) (.bind identifier_name (.bind (.newline hc) (.bind (.linebreak hl) ?_)))
    refine .left ?_
    unfold forWords
    refine .bind (.peekNoWord (by simp) (.refl hl.noBlank) ?_) ?_
    · intro w hw; exact hm w (by simp at hw ⊢; exact .inl hw)
    rw [if_neg (by simp)]
    refine .peek ?_
    rw [if_neg (head_ne hsemi)]
    refine .bind (.peekNoWord (by simp) (.refl hl.noBlank) ?_) ?_
    · intro w hw; exact hm w (by simp at hw ⊢; exact .inr hw)
    exact .failPos
  | forDo h hs hc hl hw hm =>
    have := h.lt
    have := hs.le
    have := hc.le
    have := hl.le
    simp only [List.length_cons] at *
    refine run_fails ?_
    unfold forCommand
    refine Fails.getPos fun p => .bind (.wordOrUnexpected (List.mem_singleton.2 rfl) h) ?_
    refine .bind (.skip hs) (.bind identifier_name (.bind (.newline hc) (.bind (.linebreak hl) ?_)))
    refine .bind (Gram.complete hw _ (by simp only [NT.Fits]; omega) p) ?_
    refine .bind (.peekNoWord (by simp) hm.1 hm.2) ?_
    exact .failPos
  | caseIn h hw hl hm =>
    have := h.lt
    refine run_fails ?_
    unfold caseCommand
    refine Fails.getPos fun p => .bind (.wordOrUnexpected (List.mem_singleton.2 rfl) h) ?_
    refine .bind (Gram.complete hw _ (by simp only [NT.Fits]; omega)) ?_
    exact .bind (.linebreak hl) (.left (.missing (by simp) hm))
  | casePattern h hw hl hi hc ha =>
    have := h.lt
    have := hw.le
    have := hl.le
    have := hi.lt
    have := hc.le
    refine run_fails ?_
    unfold caseCommand
    refine Fails.getPos fun p => .bind (.wordOrUnexpected (List.mem_singleton.2 rfl) h) ?_
    refine .bind (Gram.complete hw _ (by simp only [NT.Fits]; omega)) ?_
    refine .bind (.linebreak hl) (.bind (.wordOrIncomplete (List.mem_singleton.2 rfl) hi) ?_)
    refine .bind (.newline hc) (.left ?_)
    exact (armsOpen_fails ha _ (by omega) p []).fails
  | caseEsac h hw hl hi hc ha hr hm =>
    have := h.lt
    have := hw.le
    have := hl.le
    have := hi.lt
    have := hc.le
    refine run_fails ?_
    unfold caseCommand
    refine Fails.getPos fun p => .bind (.wordOrUnexpected (List.mem_singleton.2 rfl) h) ?_
    refine .bind (Gram.complete hw _ (by simp only [NT.Fits]; omega)) ?_
    refine .bind (.linebreak hl) (.bind (.wordOrIncomplete (List.mem_singleton.2 rfl) hi) ?_)
    refine .bind (.newline hc) (.bind (Gram.complete ha _ (by simp only [NT.Fits]; omega) p []).run ?_)
    exact .bind (.linebreak hr) (.left (.missing (by simp) hm))

/-- The hypotheses are met: `for x foo` lacks `in` (or `do`), the whole input having been a `for`
with its variable. -/
example (b : B.State) : Incomplete .forCommand b
    [.Name FOR, .Whitespace [' '], .Name ['x'], .Whitespace [' '], .Name ['f', 'o', 'o']]
    FOR IN [.Name ['f', 'o', 'o']] b := by
  have nb : NoBlank [.Name ['f', 'o', 'o']] := ⟨by simp, by simp⟩
  have nl : NoLineStart [.Name ['f', 'o', 'o']] := fun _ => ⟨by simp, by simp⟩
  refine .forIn (l2 := [.Whitespace [' '], .Name ['f', 'o', 'o']]) (c := none) (post := [])
    ⟨_, ⟨[], rfl, .nil, by simp [NoBlank]⟩, .inl rfl, ?_⟩ ⟨[.Whitespace [' ']], rfl, .ws .nil, by simp [NoBlank]⟩
    (.none ⟨[.Whitespace [' ']], rfl, .ws .nil, nb⟩ nl) (.nil ⟨[], rfl, .nil, nb⟩ nl) ?_ (by simp)
  · intro t r h
    cases h
    rfl
  · intro w hw r hk
    simp only [List.mem_cons, List.not_mem_nil, or_false] at hw
    rcases hw with rfl | rfl <;> rcases hk with ⟨hk | hk, -⟩ <;> simp [IN, DO] at hk

end
end Conch.Gram
