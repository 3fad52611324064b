import Verif.PassRedirect
/-!
# The pass over all functions: commands
-/
namespace Conch
open Spec

section
variable {B : Builder} {T : Theory B} {α β : Type} {s : PSt AIter B}

theorem mpAssignment_it (m : AMultipeek) : (mpAssignment (I := AIter) m).2.it = m.it := by
  rcases m with ⟨it, _ | ⟨t, ts⟩⟩
  · rfl
  · cases ts <;> cases t <;> rfl

theorem mpAssignment_val (it : AIter) (l : List PTok) :
    (mpAssignment (I := AIter) (AMultipeek.mk it (l.map (·.2)))).1 = true ↔
      ∃ p n q r, l = (p, .Name n) :: (q, .Equals) :: r := by
  rcases l with _ | ⟨⟨p, t⟩, l⟩
  · constructor
    · intro h; exact absurd (show false = true from h) (by decide)
    · rintro ⟨_, _, _, _, h⟩; cases h
  · by_cases h : ∃ n, t = .Name n
    · obtain ⟨n, rfl⟩ := h
      rcases l with _ | ⟨⟨q, u⟩, l⟩
      · constructor
        · intro h
          exact absurd (show decide (none = some Token.Equals) = true from h) (by simp)
        · rintro ⟨_, _, _, _, h⟩; cases h
      · show decide (some u = some Token.Equals) = true ↔ _
        simp
    · constructor
      · intro h'
        exfalso
        have : (mpAssignment (I := AIter) (AMultipeek.mk it (((p, t) :: l).map (·.2)))).1 =
            false := by
          cases t <;> first | rfl | exact absurd ⟨_, rfl⟩ h
        rw [this] at h'
        cases h'
      · rintro ⟨_, x, _, _, h'⟩; cases h'; exact absurd ⟨x, rfl⟩ h

theorem mpFunction_it (m : AMultipeek) : (mpFunction (I := AIter) m).2.it = m.it := by
  rcases m with ⟨it, _ | ⟨t, ts⟩⟩
  · rfl
  · by_cases h : ∃ n, t = .Name n
    · obtain ⟨n, rfl⟩ := h
      rcases ts with _ | ⟨u, ts⟩
      · rfl
      · cases ts <;> cases u <;> rfl
    · cases t <;> first | rfl | exact absurd ⟨_, rfl⟩ h

theorem tr_reservedWordOrUnexpected (hi : T.Inv s) (ws : List Str) :
    T.Tr (reservedWordOrUnexpected ws) s (fun a s' => a ∈ ws ∧ s'.len < s.len ∧
      KeywordAt ws s.it.rest s'.it.rest) := by
  unfold reservedWordOrUnexpected
  refine tr_bind (tr_reservedWord hi ws) ?_
  rintro (_ | w) s1 f1 h1
  · exact tr_unexpected f1.inv
  · exact tr_pure f1.inv (h1.found w rfl)

/-- The state after the first word of a command. -/
theorem Theory.Began.mk {s s' : PSt AIter B} {c : Str} {ws : List Str} (hi : T.Inv s) (f : T.Fr s s')
    (hk : KeywordAt ws s.it.rest s'.it.rest) (hw : ws = startWords c) :
    T.Began c s.it.pos s' := by
  subst hw
  refine ⟨⟨s.it.rest, s.it.endPos, s'.it.rest, hi.j, rfl, hk⟩, ?_⟩
  rcases f.suf with h' | h'
  · exact .inl h'
  · refine .inr ⟨s.it.rest, ?_, ?_, s'.it.rest, hk, List.suffix_refl _⟩ <;> rw [f.endPos]
    exact hi.j

theorem tr_reservedWordOrIncomplete (hi : T.Inv s) (ws : List Str) (cmd : Str) {start : SourcePos}
    (hp : T.Began cmd start s) (kw : Str) (hk : (cmd, kw) ∈ lackable) (hw : kw ∈ ws) :
    T.Tr (reservedWordOrIncomplete ws cmd start kw) s (fun a s' => a ∈ ws ∧ s'.len < s.len) := by
  unfold reservedWordOrIncomplete
  refine tr_bind (tr_reservedWord hi ws) ?_
  rintro (_ | w) s1 f1 h1
  · simp only
    rw [tr_getPos]
    obtain ⟨h2, h3⟩ := h1.missing rfl (by rintro rfl; simp at hw)
    exact tr_fail ⟨f1.k, (hp.fr f1).lacks f1.inv hk h2 (h3 kw hw)⟩
  · exact tr_pure f1.inv ⟨(h1.found w rfl).1, (h1.found w rfl).2.1⟩

theorem noBlank_peek {it : AIter} {t : Token} (h : it.peek = some t) (h1 : ∀ w, t ≠ .Whitespace w)
    (h2 : t ≠ .Backslash) : NoBlank it.rest := by
  obtain ⟨l, e⟩ := it
  constructor
  · rintro p w r rfl
    simp [AIter.peek] at h
    exact h1 w h.symm
  · rintro p q r rfl
    simp [AIter.peek] at h
    exact h2 h.symm

theorem tr_nextCompoundCommandType (hi : T.Inv s) :
    T.Tr nextCompoundCommandType s (fun a s' => a = some .Brace → NoBlank s'.it.rest) := by
  unfold nextCompoundCommandType
  refine tr_bind (tr_skipWhitespace hi) ?_
  rintro _ s1 f1 -
  rw [tr_peek]
  split
  · exact tr_pure f1.inv (by simp)
  refine tr_bind (tr_peekReservedToken f1.inv _) ?_
  rintro a s2 f2 h2
  split
  · rename_i ha
    cases a with
    | none => simp at ha
    | some t =>
      obtain ⟨ht, hp, -⟩ := h2 t rfl
      obtain rfl : t = .CurlyOpen := by simpa using ht
      exact tr_pure f2.inv fun _ => noBlank_peek hp (by simp) (by simp)
  refine tr_bind (tr_peekReservedWord f2.inv _) ?_
  rintro w s3 f3 -
  repeat' (first | exact tr_pure f3.inv (by simp) | split)

theorem tr_identifier (hi : T.Inv s) (line : Nat) :
    T.Tr (identifier line) s (fun _ s' => s'.len < s.len) := by
  unfold identifier
  rw [tr_peek]
  split
  · rename_i h
    rw [tr_getPos]
    refine tr_bind (tr_next hi) ?_
    rintro a s1 f1 ⟨rfl, h1⟩
    cases hpk : s.it.peek with
    | none => simp [hpk] at h
    | some t =>
      have hp := hi.at hpk
      rw [hpk] at h h1
      have := h1 (by simp)
      cases t <;> first
        | exact tr_pure f1.inv this
        | exact tr_fail ⟨f1.k, hp⟩
        | simp at h
  · exact tr_unexpected hi

theorem tr_eatWhitespace (hi : T.Inv s) : T.Tr eatWhitespace s (fun _ _ => True) := by
  unfold eatWhitespace
  rw [tr_peek]
  split
  · refine tr_bind (tr_next hi) ?_
    rintro _ s1 f1 -
    exact tr_pure f1.inv trivial
  · exact tr_unexpected hi

theorem tr_parens (hi : T.Inv s) : T.Tr parens s (fun _ _ => True) := by
  unfold parens
  refine tr_bind (tr_eat hi _) ?_
  rintro _ s1 f1 -
  refine tr_bind (tr_skipWhitespace f1.inv) ?_
  rintro _ s2 f2 -
  exact (tr_eat f2.inv _).mono (fun _ _ _ _ => trivial)

theorem tr_missingEsac (hi : T.Inv s) {start : SourcePos} (hp : T.Began CASE start s)
    (he : s.it.peek = none)
    {Q : α → PSt AIter B → Prop} : T.Tr (missingEsac start) s Q := by
  unfold missingEsac
  rw [tr_getPos]
  have := peek_none.1 he
  refine tr_fail ⟨hi.k, hp.lacks hi (by decide) ?_ ?_⟩ <;> rw [this]
  · exact ⟨by simp, by simp⟩
  · exact not_wordAt_nil

theorem tr_separator (hi : T.Inv s) :
    T.Tr separator s (fun a _ => (a.1 = .Newline → a.2 ≠ none) ∧ (a.1 = .Other → a.2 = none)) := by
  unfold separator
  refine tr_bind (tr_eatMaybe hi _) ?_
  rintro a s1 f1 -
  split
  · refine tr_bind (tr_newline f1.inv) ?_
    rintro c s2 f2 -
    exact tr_pure f2.inv (by simp)
  refine tr_bind (tr_eatMaybe f1.inv _) ?_
  rintro a s2 f2 -
  split
  · refine tr_bind (tr_newline f2.inv) ?_
    rintro c s3 f3 -
    exact tr_pure f3.inv (by simp)
  refine tr_bind (tr_newline f2.inv) ?_
  rintro c s3 f3 -
  split <;> exact tr_pure f3.inv (by simp)

theorem tr_foundDelim (hi : T.Inv s) (cfg : Delims) : T.Tr (foundDelim cfg) s (fun _ _ => True) := by
  unfold foundDelim
  refine tr_bind (Q1 := fun _ _ => True) ?_ ?_
  · split
    · exact tr_pure hi trivial
    · rw [tr_peek]
      exact tr_pure hi trivial
  rintro a s1 f1 -
  split
  · exact tr_pure f1.inv trivial
  refine tr_bind (tr_peekReservedWord f1.inv _) ?_
  rintro w s2 f2 -
  split
  · exact tr_pure f2.inv trivial
  refine tr_bind (tr_peekReservedToken f2.inv _) ?_
  rintro w s3 f3 -
  exact tr_pure f3.inv trivial

variable {n : Nat} {R : Rec AIter B} (hR : RecGood T n R)
include hR

/-! ## Simple commands -/

theorem tr_simpleCommand (hi : T.Inv s) (hn : s.len ≤ n) :
    T.Tr (simpleCommand R) s (fun _ s' => s'.len < s.len) := by
  unfold simpleCommand
  refine tr_bind (tr_loop hi
    (Q := fun (a : SimplePrefix B) s' => a.1 ≠ [] ∨ a.2 ≠ none → s'.len < s.len)
    (fun vars s' => vars ≠ [] → s'.len < s.len) (by simp) ?_) ?_
  · rintro vars s1 f1 h1
    have hl1 := f1.len
    unfold simplePrefixBody
    refine tr_bind (tr_skipWhitespace f1.inv) ?_
    rintro _ s2 f2 -
    have hl2 := f2.len
    rw [tr_lookahead (mpAssignment_it _)]
    split
    · rename_i h
      obtain ⟨p, x, q, r, hrest⟩ := (mpAssignment_val s2.it s2.it.rest).1 h
      refine tr_bind (tr_next f2.inv) ?_
      rintro a s3 f3 ⟨ha, h3⟩
      rw [show s2.it.peek = some (.Name x) by simp [AIter.peek, hrest]] at ha
      subst ha
      have h3 := h3 (by simp)
      simp only
      refine tr_bind (tr_next f3.inv) ?_
      rintro _ s4 f4 -
      have := f4.len
      refine tr_bind (Q1 := fun _ _ => True) ?_ ?_
      · rw [tr_peek]
        split
        · exact tr_pure f4.inv trivial
        · exact (tr_word hR f4.inv (by omega)).mono (fun _ _ _ _ => trivial)
      · rintro v s5 f5 -
        have := f5.len
        exact tr_pure f5.inv ⟨fun _ => by omega, by omega⟩
    · refine tr_bind (tr_redirect hR f2.inv (by omega)) ?_
      rintro a s3 f3 h3
      split
      · have := h3 (by simp)
        exact tr_pure f3.inv ⟨fun _ => by omega, by omega⟩
      · have := h3 (by simp)
        refine tr_pure f3.inv ?_
        intro _
        omega
      · refine tr_pure f3.inv ?_
        rintro (h | h)
        · have := h1 h
          have := f3.len
          omega
        · exact absurd rfl h
  rintro ⟨vars, exec⟩ s1 f1 h1
  have hl1 := f1.len
  simp only at h1 ⊢
  refine tr_bind (tr_loop f1.inv
    (Q := fun (args : List (RedirectOrCmdWord B.Redirect B.Word)) s' =>
      vars ≠ [] ∨ args ≠ [] → s'.len < s.len)
    (fun args s' => vars ≠ [] ∨ args ≠ [] → s'.len < s.len) ?_ ?_) ?_
  · intro h
    apply h1
    rcases h with h | h
    · exact .inl h
    · right; rintro rfl; exact h rfl
  · rintro args s2 f2 h2
    have hl2 := f2.len
    unfold simpleArgsBody
    refine tr_bind (tr_redirect hR f2.inv (by omega)) ?_
    rintro a s3 f3 h3
    split
    · have := h3 (by simp)
      exact tr_pure f3.inv ⟨fun _ => by omega, by omega⟩
    · have := h3 (by simp)
      exact tr_pure f3.inv ⟨fun _ => by omega, by omega⟩
    · refine tr_pure f3.inv ?_
      intro h
      have := h2 h
      have := f3.len
      omega
  · rintro args s2 f2 h2
    have hl2 := f2.len
    split
    · exact tr_unexpected f2.inv
    · rename_i h
      have h : vars ≠ [] ∨ args ≠ [] := by
        by_cases hv : vars = []
        · right; rintro rfl; simp [hv] at h
        · exact .inl hv
      refine (tr_call f2.inv (c := .simpleCommand vars args) h).mono ?_
      intro a s3 f3 h3
      rw [call_len h3]
      exact h2 h

/-! ## Compound commands -/

theorem tr_commandGroup (hi : T.Inv s) (hn : s.len < n) (cfg : Delims) :
    T.Tr (commandGroup R cfg) s (fun g _ => NonEmpty g) := by
  unfold commandGroup
  refine tr_bind (hR.group cfg s hi hn) ?_
  rintro g s1 f1 -
  split
  · exact tr_unexpected f1.inv
  · rename_i h
    refine tr_pure f1.inv ?_
    intro h'; simp [h'] at h

theorem tr_doGroup (hi : T.Inv s) (hn : s.len ≤ n) :
    T.Tr (doGroup R) s (fun g s' => NonEmpty g ∧ s'.len < s.len) := by
  unfold doGroup
  rw [tr_getPos]
  refine tr_bind (tr_reservedWordOrUnexpected hi _) ?_
  rintro _ s1 f1 ⟨-, h1, hk⟩
  have hp : T.Began DO s.it.pos s1 := .mk hi f1 hk (by decide)
  refine tr_bind (tr_commandGroup hR f1.inv (by omega) _) ?_
  rintro g s2 f2 h2
  have := f2.len
  refine tr_bind (tr_reservedWordOrIncomplete f2.inv _ _ (hp.fr f2) _ (by decide) (by simp)) ?_
  rintro _ s3 f3 -
  have := f3.len
  exact tr_pure f3.inv ⟨h2, by omega⟩

theorem tr_braceGroup (hi : T.Inv s) (hn : s.len ≤ n) (hlb : T.LB ∨ NoBlank s.it.rest) :
    T.Tr (braceGroup R) s (fun g s' => NonEmpty g ∧ s'.len < s.len) := by
  unfold braceGroup
  rw [tr_getPos]
  refine tr_bind (tr_reservedToken hi _) ?_
  rintro t s1 f1 ⟨ht, h1, bs, q, r, hb, hr⟩
  obtain rfl : t = .CurlyOpen := by simpa using ht
  refine tr_bind (tr_commandGroup hR f1.inv (by omega) _) ?_
  rintro g s2 f2 h2
  have := f2.len
  refine tr_bind (tr_reservedToken' f2.inv _) ?_
  rintro a s3 f3 -
  have := f3.len
  split
  · exact tr_pure f3.inv ⟨h2, by omega⟩
  · refine tr_bind (tr_next f3.inv) ?_
    rintro _ s4 f4 -
    refine tr_fail ⟨f4.k, ?_⟩
    rcases hlb with h | h
    · exact ⟨by simp [openers], .inr ⟨h, s.it, bs, q, r, hi.j, rfl, hr, hb⟩⟩
    · refine (hi.at ?_).b
      rw [hr] at h
      rw [hb.nil_of h] at hr
      simp [AIter.peek, hr]

theorem tr_loopCommand (hi : T.Inv s) (hn : s.len ≤ n) :
    T.Tr (loopCommand R) s (fun a s' => NonEmpty a.2.guard ∧ NonEmpty a.2.body ∧
      s'.len < s.len) := by
  unfold loopCommand
  rw [tr_getPos]
  refine tr_bind (tr_reservedWordOrUnexpected hi _) ?_
  rintro w s1 f1 ⟨hw, h1, hk⟩
  have hp : T.Began WHILE s.it.pos s1 := .mk hi f1 hk (by decide)
  refine tr_bind (Q1 := fun _ s' => s' = s1) ?_ ?_
  · split
    · exact tr_pure f1.inv rfl
    · split
      · exact tr_pure f1.inv rfl
      · simp only [List.mem_cons, List.not_mem_nil, or_false] at hw
        rcases hw with hw | hw <;> contradiction
  rintro k s1' f1' hs
  subst hs
  refine tr_bind (tr_commandGroup hR f1.inv (by omega) _) ?_
  rintro g s2 f2 h2
  have := f2.len
  refine tr_bind (tr_peekReservedWord f2.inv _) ?_
  rintro a s3 f3 h3
  have := f3.len
  split
  · refine tr_bind (tr_doGroup hR f3.inv (by omega)) ?_
    rintro b s4 f4 ⟨h4, h5⟩
    exact tr_pure f4.inv ⟨h2, h4, by omega⟩
  · rename_i ha
    obtain ⟨h4, h5⟩ := h3.missing (by simpa using ha) (by simp)
    rw [tr_getPos]
    exact tr_fail ⟨f3.k, ((hp.fr f2).fr f3).lacks f3.inv (by decide) h4 (h5 _ (by simp))⟩

/-- The fragments of an `if` that the builder may see. -/
def IfOk {C : Type} (f : IfFragments C) : Prop :=
  f.conditionals ≠ [] ∧ (∀ p ∈ f.conditionals, NonEmpty p.guard ∧ NonEmpty p.body) ∧
    ∀ g, f.elseBranch = some g → NonEmpty g

theorem tr_ifCommand (hi : T.Inv s) (hn : s.len ≤ n) :
    T.Tr (ifCommand R) s (fun f s' => IfOk f ∧ s'.len < s.len) := by
  unfold ifCommand
  rw [tr_getPos]
  refine tr_bind (tr_reservedWordOrUnexpected hi _) ?_
  rintro w s1 f1 ⟨-, h1, hk⟩
  have hp : T.Began IF s.it.pos s1 := .mk hi f1 hk (by decide)
  refine Theory.Tr.mono (tr_loop f1.inv (Q := fun f _ => IfOk f)
    (fun cs _ => ∀ p ∈ cs, NonEmpty p.guard ∧ NonEmpty p.body) (by simp) ?_)
    (fun a s' f h => ⟨h, by have := f.len; omega⟩)
  rintro cs s2 f2 hcs
  have := f2.len
  unfold ifBody
  refine tr_bind (tr_commandGroup hR f2.inv (by omega) _) ?_
  rintro g s3 f3 h3
  have := f3.len
  have hp := (hp.fr f2).fr f3
  refine tr_bind (tr_reservedWordOrIncomplete f3.inv _ _ hp _ (by decide) (by simp)) ?_
  rintro _ s4 f4 ⟨-, h4⟩
  refine tr_bind (tr_commandGroup hR f4.inv (by omega) _) ?_
  rintro b s5 f5 h5
  have := f5.len
  have hp := (hp.fr f4).fr f5
  refine tr_bind (tr_reservedWordOrIncomplete f5.inv _ _ hp _ (by decide) (by simp)) ?_
  rintro w s6 f6 ⟨hw, h6⟩
  have hp6 := hp.fr f6
  have hcs' : ∀ p ∈ cs ++ [⟨g, b⟩], NonEmpty p.guard ∧ NonEmpty p.body := by
    intro p hp
    rcases List.mem_append.1 hp with h | h
    · exact hcs p h
    · cases List.mem_singleton.1 h; exact ⟨h3, h5⟩
  split
  · exact tr_pure f6.inv ⟨hcs', by omega⟩
  split
  · refine tr_bind (tr_commandGroup hR f6.inv (by omega) _) ?_
    rintro el s7 f7 h7
    refine tr_bind (tr_reservedWordOrIncomplete f7.inv _ _ (hp6.fr f7) _ (by decide) (by simp)) ?_
    rintro _ s8 f8 -
    refine tr_pure f8.inv ?_
    exact ⟨by simp, hcs', by rintro g hg; cases hg; exact h7⟩
  split
  · exact tr_pure f6.inv ⟨by simp, hcs', by simp⟩
  · simp only [List.mem_cons, List.not_mem_nil, or_false] at hw
    rcases hw with hw | hw | hw <;> contradiction

theorem tr_words (hi : T.Inv s) (hn : s.len ≤ n) :
    T.Tr (loop (wordsBody R) []) s (fun _ _ => True) := by
  refine tr_loop hi (fun _ _ => True) trivial ?_
  rintro ws s1 f1 -
  have := f1.len
  unfold wordsBody
  refine tr_bind (tr_word hR f1.inv (by omega)) ?_
  rintro a s2 f2 h2
  split
  · exact tr_pure f2.inv ⟨trivial, h2 (by simp)⟩
  · exact tr_pure f2.inv trivial

theorem tr_forWords (hi : T.Inv s) (hn : s.len ≤ n) {start : SourcePos} (hp : T.Began FOR start s)
    (post : List Nl) : T.Tr (forWords R start post) s (fun _ _ => True) := by
  unfold forWords
  refine tr_bind (tr_peekReservedWord hi _) ?_
  rintro a s1 f1 h1
  have := f1.len
  split
  · rename_i ha
    cases a with
    | none => simp at ha
    | some w =>
      obtain ⟨h2, h3, h4⟩ := h1.found w rfl
      refine tr_bind (tr_reservedWord_of_peek f1.inv h2 h3 h4) ?_
      rintro _ s2 f2 ⟨rfl, -⟩
      have := f2.len
      simp only
      refine tr_bind (tr_words hR f2.inv (by omega)) ?_
      rintro ws s3 f3 -
      refine tr_bind (tr_eatMaybe f3.inv _) ?_
      rintro semi s4 f4 -
      refine tr_bind (tr_newline f4.inv) ?_
      rintro c s5 f5 -
      split
      · exact tr_unexpected f5.inv
      · refine tr_bind (tr_linebreak f5.inv) ?_
        rintro pre s6 f6 -
        exact tr_pure f6.inv trivial
  · rename_i ha
    obtain ⟨h2, h3⟩ := h1.missing (by simpa using ha) (by simp)
    rw [tr_peek]
    split
    · refine tr_bind (tr_eat f1.inv _) ?_
      rintro _ s2 f2 -
      refine tr_bind (tr_linebreak f2.inv) ?_
      rintro pre s3 f3 -
      exact tr_pure f3.inv trivial
    · refine tr_bind (tr_peekReservedWord f1.inv _) ?_
      rintro b s2 f2 h4
      split
      · rw [tr_getPos]
        have hs := h4.same h2
        refine tr_fail ⟨f2.k, ((hp.fr f1).fr f2).lacks f2.inv (by decide) ?_ ?_⟩ <;> rw [hs]
        · exact h2
        · exact h3 _ (by simp)
      · exact tr_pure f2.inv trivial

theorem tr_forCommand (hi : T.Inv s) (hn : s.len ≤ n) :
    T.Tr (forCommand R) s (fun f s' => NonEmpty f.body ∧ s'.len < s.len) := by
  unfold forCommand
  rw [tr_getPos]
  refine tr_bind (tr_reservedWordOrUnexpected hi _) ?_
  rintro w s1 f1 ⟨-, h1, hk⟩
  have hp : T.Began FOR s.it.pos s1 := .mk hi f1 hk (by decide)
  refine tr_bind (tr_skipWhitespace f1.inv) ?_
  rintro _ s2 f2 -
  refine tr_bind (tr_identifier f2.inv _) ?_
  rintro v s3 f3 -
  refine tr_bind (tr_newline f3.inv) ?_
  rintro c s4 f4 -
  refine tr_bind (tr_linebreak f4.inv) ?_
  rintro post s5 f5 -
  have h5 := (((f2.trans f3).trans f4).trans f5).len
  have hp := hp.fr (((f2.trans f3).trans f4).trans f5)
  refine tr_bind (tr_forWords hR f5.inv (by omega) hp post) ?_
  rintro ⟨ws, pre⟩ s6 f6 -
  have := f6.len
  refine tr_bind (tr_peekReservedWord f6.inv _) ?_
  rintro b s7 f7 h7
  have := f7.len
  split
  · rename_i hb
    obtain ⟨h8, h9⟩ := h7.missing (by simpa using hb) (by simp)
    rw [tr_getPos]
    exact tr_fail ⟨f7.k, ((hp.fr f6).fr f7).lacks f7.inv (by decide) h8 (h9 _ (by simp))⟩
  · refine tr_bind (tr_doGroup hR f7.inv (by omega)) ?_
    rintro g s8 f8 ⟨h8, h9⟩
    exact tr_pure f8.inv ⟨h8, by omega⟩

theorem tr_patterns (hi : T.Inv s) (hn : s.len ≤ n) {start : SourcePos} (hp : T.Began CASE start s) :
    T.Tr (loop (patternBody R start) []) s (fun ps s' => ps ≠ [] ∧ s'.len < s.len) := by
  refine tr_loop hi (fun _ _ => True) trivial ?_
  rintro ps s1 f1 -
  have := f1.len
  unfold patternBody
  refine tr_bind (tr_word hR f1.inv (by omega)) ?_
  rintro a s2 f2 h2
  have := f2.len
  split
  · exact tr_unexpected f2.inv
  · have h2 := h2 (by simp)
    simp only
    rw [tr_peek]
    split
    · refine tr_bind (tr_next f2.inv) ?_
      rintro _ s3 f3 -
      have := f3.len
      exact tr_pure f3.inv ⟨trivial, by omega⟩
    · refine tr_bind (tr_next f2.inv) ?_
      rintro _ s3 f3 -
      have := f3.len
      exact tr_pure f3.inv ⟨by simp, by omega⟩
    · exact tr_missingEsac f2.inv ((hp.fr f1).fr f2) (by assumption)
    · exact tr_unexpected f2.inv

/-- The arms of a `case` that the builder may see. -/
def ArmsOk {W C : Type} (as : List (CaseArm W C)) : Prop :=
  ∀ a ∈ as, a.patterns.patternAlternatives ≠ []

theorem tr_arms (hi : T.Inv s) (hn : s.len ≤ n) {start : SourcePos} (hp : T.Began CASE start s) :
    T.Tr (loop (armBody R start) []) s (fun a _ => ArmsOk a.1) := by
  refine tr_loop hi (fun as _ => ArmsOk as) (by simp [ArmsOk]) ?_
  rintro as s1 f1 has
  have := f1.len
  unfold armBody
  refine tr_bind (tr_linebreak f1.inv) ?_
  rintro pre s2 f2 -
  refine tr_bind (tr_peekReservedWord f2.inv _) ?_
  rintro a s3 f3 -
  split
  · exact tr_pure f3.inv has
  refine tr_bind (tr_eatMaybe f3.inv _) ?_
  rintro _ s4 f4 -
  have h4 := ((f2.trans f3).trans f4).len
  have hp := (hp.fr f1).fr ((f2.trans f3).trans f4)
  rw [tr_peek]
  split
  · exact tr_missingEsac f4.inv hp (by assumption)
  · refine tr_bind (tr_patterns hR f4.inv (by omega) hp) ?_
    rintro ps s5 f5 ⟨hps, h5⟩
    refine tr_bind (tr_newline f5.inv) ?_
    rintro c s6 f6 -
    have := f6.len
    refine tr_bind (hR.group _ s6 f6.inv (by omega)) ?_
    rintro body s7 f7 -
    have := f7.len
    rw [tr_peek]
    have key : ∀ ac, ArmsOk (as ++ [⟨⟨pre, ps, c⟩, body, ac⟩]) := by
      intro ac x hx
      rcases List.mem_append.1 hx with h | h
      · exact has x h
      · cases List.mem_singleton.1 h; exact hps
    split
    · refine tr_bind (tr_next f7.inv) ?_
      rintro _ s8 f8 -
      refine tr_bind (tr_newline f8.inv) ?_
      rintro ac s9 f9 -
      have := (f8.trans f9).len
      exact tr_pure f9.inv ⟨key _, by omega⟩
    · exact tr_pure f7.inv (key _)

theorem tr_caseCommand (hi : T.Inv s) (hn : s.len ≤ n) :
    T.Tr (caseCommand R) s (fun f s' => ArmsOk f.arms ∧ s'.len < s.len) := by
  unfold caseCommand
  rw [tr_getPos]
  refine tr_bind (tr_reservedWordOrUnexpected hi _) ?_
  rintro w s1 f1 ⟨-, h1, hk⟩
  have hp : T.Began CASE s.it.pos s1 := .mk hi f1 hk (by decide)
  refine tr_bind (tr_word hR f1.inv (by omega)) ?_
  rintro a s2 f2 -
  split
  · exact tr_unexpected f2.inv
  refine tr_bind (tr_linebreak f2.inv) ?_
  rintro post s3 f3 -
  refine tr_bind (tr_reservedWordOrIncomplete f3.inv _ _ ((hp.fr f2).fr f3) _ (by decide) (by simp)) ?_
  rintro _ s4 f4 -
  refine tr_bind (tr_newline f4.inv) ?_
  rintro c s5 f5 -
  have h5 := (((f2.trans f3).trans f4).trans f5).len
  have hp := hp.fr (((f2.trans f3).trans f4).trans f5)
  refine tr_bind (tr_arms hR f5.inv (by omega) hp) ?_
  rintro ⟨as, pre⟩ s6 f6 h6
  refine tr_bind (tr_linebreak f6.inv) ?_
  rintro rem s7 f7 -
  refine tr_bind (tr_reservedWordOrIncomplete f7.inv _ _ ((hp.fr f6).fr f7) _ (by decide) (by simp)) ?_
  rintro _ s8 f8 -
  have := ((f6.trans f7).trans f8).len
  exact tr_pure f8.inv ⟨h6, by omega⟩

theorem tr_compoundCommandKw (hi : T.Inv s) (hn : s.len ≤ n) (kw : Option CompoundKw)
    (hkw : kw = some .Brace → NoBlank s.it.rest) :
    T.Tr (compoundCommandKw R kw) s (fun _ s' => s'.len < s.len) := by
  unfold compoundCommandKw
  split
  · refine tr_bind (tr_ifCommand hR hi hn) ?_
    rintro f s1 f1 ⟨h1, h2⟩
    refine tr_bind (tr_redirectList hR f1.inv (by omega)) ?_
    rintro io s2 f2 -
    have := f2.len
    exact (tr_call f2.inv (c := .ifCommand f io) h1).mono
      (fun _ _ _ h => by rw [call_len h]; omega)
  · refine tr_bind (tr_loopCommand hR hi hn) ?_
    rintro ⟨k, p⟩ s1 f1 ⟨h0, h1, h2⟩
    refine tr_bind (tr_redirectList hR f1.inv (by omega)) ?_
    rintro io s2 f2 -
    have := f2.len
    exact (tr_call f2.inv (c := .loopCommand k p io) ⟨h0, h1⟩).mono
      (fun _ _ _ h => by rw [call_len h]; omega)
  · refine tr_bind (tr_loopCommand hR hi hn) ?_
    rintro ⟨k, p⟩ s1 f1 ⟨h0, h1, h2⟩
    refine tr_bind (tr_redirectList hR f1.inv (by omega)) ?_
    rintro io s2 f2 -
    have := f2.len
    exact (tr_call f2.inv (c := .loopCommand k p io) ⟨h0, h1⟩).mono
      (fun _ _ _ h => by rw [call_len h]; omega)
  · refine tr_bind (tr_forCommand hR hi hn) ?_
    rintro f s1 f1 ⟨h1, h2⟩
    refine tr_bind (tr_redirectList hR f1.inv (by omega)) ?_
    rintro io s2 f2 -
    have := f2.len
    exact (tr_call f2.inv (c := .forCommand f io) h1).mono
      (fun _ _ _ h => by rw [call_len h]; omega)
  · refine tr_bind (tr_caseCommand hR hi hn) ?_
    rintro f s1 f1 ⟨h1, h2⟩
    refine tr_bind (tr_redirectList hR f1.inv (by omega)) ?_
    rintro io s2 f2 -
    have := f2.len
    exact (tr_call f2.inv (c := .caseCommand f io) h1).mono
      (fun _ _ _ h => by rw [call_len h]; omega)
  · refine tr_bind (tr_braceGroup hR hi hn (.inr (hkw rfl))) ?_
    rintro g s1 f1 ⟨h1, h2⟩
    refine tr_bind (tr_redirectList hR f1.inv (by omega)) ?_
    rintro io s2 f2 -
    have := f2.len
    exact (tr_call f2.inv (c := .braceGroup g io) h1).mono
      (fun _ _ _ h => by rw [call_len h]; omega)
  · refine tr_bind (tr_subshellInternal hR hi hn false) ?_
    rintro g s1 f1 ⟨h2, h1⟩
    refine tr_bind (tr_redirectList hR f1.inv (by omega)) ?_
    rintro io s2 f2 -
    have := f2.len
    exact (tr_call f2.inv (c := .subshell g io) (.inl (h1 rfl)) (.inr (h1 rfl))).mono
      (fun _ _ _ h => by rw [call_len h]; omega)
  · exact tr_unexpected hi

theorem tr_compoundCommand (hi : T.Inv s) (hn : s.len ≤ n) :
    T.Tr (compoundCommand R) s (fun _ s' => s'.len < s.len) := by
  unfold compoundCommand
  refine tr_bind (tr_nextCompoundCommandType hi) ?_
  rintro kw s1 f1 hkw
  have := f1.len
  exact (tr_compoundCommandKw hR f1.inv (by omega) kw hkw).mono (fun _ _ _ h => by omega)

/-! ## Functions -/

theorem tr_functionBodyStart (hi : T.Inv s) (hn : s.len ≤ n) (fn : Bool) (hfn : fn = true → T.FN) :
    T.Tr (functionBodyStart R fn) s (fun _ _ => True) := by
  unfold functionBodyStart
  rw [tr_peek]
  split
  · refine tr_bind (tr_parens hi) ?_
    rintro _ s1 f1 -
    exact tr_pure f1.inv trivial
  split
  · exact tr_pure hi trivial
  refine tr_bind (tr_eatWhitespace hi) ?_
  rintro _ s1 f1 -
  refine tr_bind (tr_skipWhitespace f1.inv) ?_
  rintro _ s2 f2 -
  have := (f1.trans f2).len
  split
  · refine tr_bind (tr_parens f2.inv) ?_
    rintro _ s3 f3 -
    exact tr_pure f3.inv trivial
  rw [tr_peek]
  split
  · refine tr_bind (tr_subshellInternal hR f2.inv (by omega) true) ?_
    rintro g s3 f3 -
    split
    · exact tr_pure f3.inv trivial
    · rename_i h
      refine tr_bind (tr_call f3.inv (c := .subshell g []) ?_ (.inl (hfn (by cases fn <;> simp_all)))) ?_
      · by_cases hg : g.commands = []
        · right
          refine ⟨rfl, ?_⟩
          intro h'; simp [hg, h'] at h
        · exact .inl hg
      · rintro c s4 f4 -
        exact tr_pure f4.inv trivial
  · exact tr_pure f2.inv trivial

omit hR in
theorem Theory.fn_of_peeked {s s' : PSt AIter B} {a} (hi : T.Inv s') (h : PeekedWord [FUNCTION] s a s')
    (ha : a.isSome = true) : T.FN := by
  obtain ⟨w, rfl⟩ := Option.isSome_iff_exists.1 ha
  obtain ⟨h1, -, p, r, h2, -⟩ := h.found w rfl
  obtain rfl := List.mem_singleton.1 h1
  obtain ⟨⟨l, e⟩, b⟩ := s'
  rcases h2 with rfl | rfl
  · exact T.fn hi.j (.inl rfl)
  · exact T.fn hi.j (.inr rfl)

theorem tr_functionDeclarationInternal (hi : T.Inv s) (hn : s.len ≤ n) :
    T.Tr (functionDeclarationInternal R) s (fun _ s' => s'.len < s.len) := by
  unfold functionDeclarationInternal
  refine tr_bind (Q1 := fun fn _ => fn = true → T.FN) ?_ ?_
  · refine tr_bind (tr_peekReservedWord hi _) ?_
    rintro a s1 f1 h1
    split
    · refine tr_bind (tr_next f1.inv) ?_
      rintro _ s2 f2 -
      exact tr_pure f2.inv fun _ => Theory.fn_of_peeked f1.inv h1 (by assumption)
    · exact tr_pure f1.inv (by simp)
  rintro fn s1 f1 h1
  refine tr_bind (tr_skipWhitespace f1.inv) ?_
  rintro _ s2 f2 -
  refine tr_bind (tr_identifier f2.inv _) ?_
  rintro name s3 f3 h3
  have := (f1.trans f2).len
  refine tr_bind (tr_functionBodyStart hR f3.inv (by omega) fn h1) ?_
  rintro a s4 f4 -
  have := f4.len
  split
  · exact tr_pure f4.inv (by omega)
  · refine tr_bind (tr_linebreak f4.inv) ?_
    rintro cs s5 f5 -
    have := f5.len
    refine tr_bind (tr_compoundCommand hR f5.inv (by omega)) ?_
    rintro c s6 f6 h6
    exact tr_pure f6.inv (by omega)

theorem tr_functionDeclaration (hi : T.Inv s) (hn : s.len ≤ n) :
    T.Tr (functionDeclaration R) s (fun _ s' => s'.len < s.len) := by
  unfold functionDeclaration
  refine tr_bind (tr_functionDeclarationInternal hR hi hn) ?_
  rintro ⟨name, cs, body⟩ s1 f1 h1
  exact (tr_call f1.inv (c := .functionDeclaration name cs body) trivial).mono
      (fun _ _ _ h => by rw [call_len h]; exact h1)

theorem tr_maybeFunctionDeclaration (hi : T.Inv s) (hn : s.len ≤ n) :
    T.Tr (maybeFunctionDeclaration R) s (fun a s' => a ≠ none → s'.len < s.len) := by
  unfold maybeFunctionDeclaration
  refine tr_bind (tr_peekReservedWord hi _) ?_
  rintro a s1 f1 -
  have := f1.len
  split
  · refine tr_bind (tr_functionDeclaration hR f1.inv (by omega)) ?_
    rintro c s2 f2 h2
    exact tr_pure f2.inv (fun _ => by omega)
  · rw [tr_lookahead (mpFunction_it _)]
    split
    · refine tr_bind (tr_functionDeclaration hR f1.inv (by omega)) ?_
      rintro c s2 f2 h2
      exact tr_pure f2.inv (fun _ => by omega)
    · exact tr_pure f1.inv (by simp)

/-! ## Lists -/

theorem tr_command (hi : T.Inv s) (hn : s.len ≤ n) :
    T.Tr (command R) s (fun _ s' => s'.len < s.len) := by
  unfold command
  refine tr_bind (tr_nextCompoundCommandType hi) ?_
  rintro kw s1 f1 hkw
  have := f1.len
  split
  · rename_i kw
    refine tr_bind (tr_compoundCommandKw hR f1.inv (by omega) (some kw) hkw) ?_
    rintro c s2 f2 h2
    exact (tr_call f2.inv (c := .compoundCommandIntoPipeable c) trivial).mono
      (fun _ _ _ h => by rw [call_len h]; omega)
  · refine tr_bind (tr_maybeFunctionDeclaration hR f1.inv (by omega)) ?_
    rintro a s2 f2 h2
    have := f2.len
    split
    · have := h2 (by simp)
      exact tr_pure f2.inv (by omega)
    · exact (tr_simpleCommand hR f2.inv (by omega)).mono (fun _ _ _ h => by omega)

theorem tr_pipeline (hi : T.Inv s) (hn : s.len ≤ n) :
    T.Tr (pipeline R) s (fun _ s' => s'.len < s.len) := by
  unfold pipeline
  refine tr_bind (tr_skipWhitespace hi) ?_
  rintro _ s1 f1 -
  refine tr_bind (tr_eatMaybe f1.inv _) ?_
  rintro bang s2 f2 -
  have := (f1.trans f2).len
  refine tr_bind (tr_loop f2.inv
    (Q := fun (cmds : List (List Nl × B.PipeableCommand)) s' => cmds ≠ [] ∧ s'.len < s2.len)
    (fun _ _ => True) trivial ?_) ?_
  · rintro cmds s3 f3 -
    have := f3.len
    unfold pipelineBody
    rw [tr_peek]
    split
    · exact tr_unexpected f3.inv
    refine tr_bind (tr_command hR f3.inv (by omega)) ?_
    rintro c s4 f4 h4
    refine tr_bind (tr_eatMaybe f4.inv _) ?_
    rintro p s5 f5 -
    have := f5.len
    split
    · refine tr_bind (tr_linebreak f5.inv) ?_
      rintro ls s6 f6 -
      have := f6.len
      exact tr_pure f6.inv ⟨trivial, by omega⟩
    · exact tr_pure f5.inv ⟨by simp, by omega⟩
  · rintro cmds s3 f3 ⟨h3, h4⟩
    exact (tr_call f3.inv (c := .pipeline bang cmds) h3).mono
      (fun _ _ _ h => by rw [call_len h]; omega)

theorem tr_andOrList (hi : T.Inv s) (hn : s.len ≤ n) :
    T.Tr (andOrList R) s (fun _ s' => s'.len < s.len) := by
  unfold andOrList
  refine tr_bind (tr_pipeline hR hi hn) ?_
  rintro c s1 f1 h1
  refine tr_bind (tr_loop f1.inv (Q := fun _ _ => True) (fun _ _ => True) trivial ?_) ?_
  · rintro rest s2 f2 -
    have := f2.len
    unfold andOrBody
    refine tr_bind (tr_skipWhitespace f2.inv) ?_
    rintro _ s3 f3 -
    refine tr_bind (tr_eatMaybe f3.inv _) ?_
    rintro a s4 f4 -
    have := (f3.trans f4).len
    split
    · refine tr_bind (tr_linebreak f4.inv) ?_
      rintro ls s5 f5 -
      have := f5.len
      refine tr_bind (tr_pipeline hR f5.inv (by omega)) ?_
      rintro c s6 f6 h6
      exact tr_pure f6.inv ⟨trivial, by omega⟩
    refine tr_bind (tr_eatMaybe f4.inv _) ?_
    rintro a s5 f5 -
    have := f5.len
    split
    · refine tr_bind (tr_linebreak f5.inv) ?_
      rintro ls s6 f6 -
      have := f6.len
      refine tr_bind (tr_pipeline hR f6.inv (by omega)) ?_
      rintro c s7 f7 h7
      exact tr_pure f7.inv ⟨trivial, by omega⟩
    · exact tr_pure f5.inv trivial
  · rintro rest s2 f2 -
    have := f2.len
    exact (tr_call f2.inv (c := .andOrList c rest) trivial).mono
      (fun _ _ _ h => by rw [call_len h]; omega)

theorem tr_completeCommandWithComments (hi : T.Inv s) (hn : s.len ≤ n) (pre : List Nl) :
    T.Tr (completeCommandWithComments R pre) s (fun _ s' => s'.len < s.len) := by
  unfold completeCommandWithComments
  refine tr_bind (tr_andOrList hR hi hn) ?_
  rintro c s1 f1 h1
  refine tr_bind (tr_separator f1.inv) ?_
  rintro ⟨sep, cm⟩ s2 f2 h2
  have := f2.len
  exact (tr_call f2.inv (c := .completeCommand pre c sep cm) h2).mono
      (fun _ _ _ h => by rw [call_len h]; omega)

theorem tr_commandGroupInternal (hi : T.Inv s) (hn : s.len ≤ n) (cfg : Delims) :
    T.Tr (commandGroupInternal R cfg) s (fun _ _ => True) := by
  unfold commandGroupInternal
  refine tr_loop hi (fun _ _ => True) trivial ?_
  rintro cmds s1 f1 -
  have := f1.len
  unfold groupBody
  refine tr_bind (tr_foundDelim f1.inv cfg) ?_
  rintro a s2 f2 -
  have := f2.len
  split
  · exact tr_pure f2.inv trivial
  refine tr_bind (tr_linebreak f2.inv) ?_
  rintro ls s3 f3 -
  have := f3.len
  refine tr_bind (Q1 := fun _ _ => True) ?_ ?_
  · refine tr_bind (tr_foundDelim f3.inv cfg) ?_
    rintro a s4 f4 -
    split
    · exact tr_pure f4.inv trivial
    · rw [tr_peek]
      exact tr_pure f4.inv trivial
  rintro stop s4 f4 -
  have := f4.len
  split
  · exact tr_pure f4.inv trivial
  · refine tr_bind (tr_completeCommandWithComments hR f4.inv (by omega) ls) ?_
    rintro c s5 f5 h5
    exact tr_pure f5.inv ⟨trivial, by omega⟩

theorem tr_completeCommand (hi : T.Inv s) (hn : s.len ≤ n) :
    T.Tr (completeCommand R) s (fun a s' => a ≠ none → s'.len < s.len) := by
  unfold completeCommand
  refine tr_bind (tr_linebreak hi) ?_
  rintro pre s1 f1 -
  have := f1.len
  rw [tr_peek]
  split
  · refine tr_bind (tr_completeCommandWithComments hR f1.inv (by omega) pre) ?_
    rintro c s2 f2 h2
    exact tr_pure f2.inv (fun _ => by omega)
  split
  · exact tr_pure f1.inv (by simp)
  · rename_i h
    refine tr_bind (tr_call f1.inv (c := .comments pre) (by intro h'; simp [h'] at h)) ?_
    rintro _ s2 f2 -
    exact tr_pure f2.inv (by simp)

theorem tr_backtickedCommandSubstitution (hi : T.Inv s) (hn : s.len ≤ n) :
    T.Tr (backtickedCommandSubstitution R) s (fun _ _ => True) := by
  unfold backtickedCommandSubstitution
  refine tr_bind (tr_backtickedRaw hR hi hn) ?_
  rintro w s1 f1 -
  exact (tr_call f1.inv (c := .word (.Single (.Simple w))) trivial).mono (fun _ _ _ _ => trivial)

theorem tr_parameter (hi : T.Inv s) (hn : s.len ≤ n + 1) :
    T.Tr (parameter R) s (fun _ _ => True) := by
  unfold parameter
  refine tr_bind (tr_parameterRaw hR hi hn) ?_
  rintro w s1 f1 -
  exact (tr_call f1.inv (c := .word (.Single (.Simple w))) trivial).mono (fun _ _ _ _ => trivial)

end

/-! ## Tying the knot -/

variable {B : Builder} {T : Theory B}

theorem RecGood.step {n : Nat} {R : Rec AIter B} (h : RecGood T n R) :
    RecGood T (n + 1) { group := commandGroupInternal R, param := parameterRaw R } :=
  ⟨fun cfg _ hi hn => tr_commandGroupInternal h hi (Nat.le_of_lt_succ hn) cfg,
   fun _ hi _ hn => tr_parameterRaw h hi hn⟩

theorem Rec.fix_succ (n : Nat) : (Rec.fix (n + 1) : Rec AIter B) =
    { group := commandGroupInternal (Rec.fix n), param := parameterRaw (Rec.fix n) } := rfl

theorem recGood_fix (T : Theory B) (n : Nat) : RecGood T n (Rec.fix n : Rec AIter B) := by
  induction n with
  | zero =>
    refine ⟨fun _ _ _ h => absurd h (Nat.not_lt_zero _), fun _ _ h h' => ?_⟩
    omega
  | succ n ih => rw [Rec.fix_succ]; exact ih.step

theorem run_eq {α : Type} (f : Rec AIter B → P AIter B α) (s : PSt AIter B) :
    run f s = f (Rec.fix (s.len + 1)) s := rfl

/-- Running a method with the budget of the model. -/
theorem tr_run {α : Type} {f : Rec AIter B → P AIter B α} {s : PSt AIter B}
    {Q : α → PSt AIter B → Prop} (hi : T.Inv s)
    (h : ∀ R, RecGood T (s.len + 1) R → T.Tr (f R) s Q) :
    T.Tr (run f) s Q :=
  tr_congr hi.refl (run_eq f s) (h _ (recGood_fix T _))

end Conch
