import Verif.AlikeTree
import Verif.PropsLocal
/-!
# Property C56: names, texts and blanks are opaque
-/
namespace Conch
open Spec Gram

/-! ## Specification -/

/-- A tree without its texts. -/
def Spec.skeleton (c : TopLevelCommand Str) : TopLevelCommand Unit := c.map fun _ => ()

/-! ## Trees without texts -/

/-- The builder that forgets texts. -/
@[reducible] def unitCore : Core := defaultCore Unit fun _ => ()

theorem top_shape {l r : List Token} {a : Option (TopLevelCommand Str)} {b b' : DefaultBuilder.State}
    (h : Reads (B := DefaultBuilder) .top b l a r b') : Reads (B := unitCore.builder) .top () l (a.map skeleton) r () := by
  have ht : (PSt.new (B := DefaultBuilder) l b).tokens = l := parserOn_rest _ _
  have h1 : Parses .completeCommand (PSt.new (B := DefaultBuilder) l b) a r b' := top_iff.2 (by rw [ht]; exact h)
  obtain ⟨g1, g2, -⟩ := h1
  obtain ⟨c1, c2⟩ := C38_string_types_agree (fun _ => ()) (PSt.new (B := DefaultBuilder) l b).it
  have hb : (⟨(PSt.new (B := DefaultBuilder) l b).it, ()⟩ : PSt CIter DefaultBuilder) = PSt.new l b := rfl
  rw [hb] at c1 c2
  have ht' : (PSt.new (B := unitCore.builder) l ()).tokens = l := parserOn_rest _ _
  have h2 : Parses .completeCommand (PSt.new (B := unitCore.builder) l ()) (a.map skeleton) r () := by
    refine ⟨?_, ?_, rfl⟩
    · exact c2.trans (by rw [g1]; rfl)
    · rw [← g2]; exact congrArg (fun x : CIter => x.1.abs.rest.map (·.2)) c1
  have h3 := top_iff.1 h2
  rw [ht'] at h3
  exact h3

theorem shape_top {l r : List Token} {x : Option (TopLevelCommand Unit)} {b b' : DefaultBuilder.State}
    {c c' : unitCore.builder.State} (h : Reads (B := unitCore.builder) .top c l x r c') :
    ∃ a : Option (TopLevelCommand Str), a.map skeleton = x ∧ Reads (B := DefaultBuilder) .top b l a r b' := by
  have ht' : (PSt.new (B := unitCore.builder) l c).tokens = l := parserOn_rest _ _
  have h1 : Parses .completeCommand (PSt.new (B := unitCore.builder) l c) x r c' := top_iff.2 (by rw [ht']; exact h)
  obtain ⟨g1, g2, -⟩ := h1
  obtain ⟨c1, c2⟩ := C38_string_types_agree (fun _ => ()) (PSt.new (B := DefaultBuilder) l b).it
  have g1' := c2.symm.trans g1
  have g2' : _ = r := (congrArg (fun x : CIter => x.1.abs.rest.map (·.2)) c1).symm.trans g2
  have ht : (PSt.new (B := DefaultBuilder) l b).tokens = l := parserOn_rest _ _
  generalize hz : (Method.completeCommand.run (⟨(PSt.new (B := DefaultBuilder) l b).it, ()⟩ : PSt CIter DefaultBuilder)).1 = z at g1'
  cases z with
  | ok a =>
    have h2 : Parses .completeCommand (PSt.new (B := DefaultBuilder) l b) a r b' := ⟨hz, g2', rfl⟩
    have h3 := top_iff.1 h2
    rw [ht] at h3
    exact ⟨a, Res.ok.inj g1', h3⟩
  | err => cases g1'
  | panic => cases g1'
  | fuel => cases g1'

theorem al_of {l l' : List Token} (h : List.Forall₂ Alike l l') : Al l l' := by
  induction h with
  | nil => exact .nil
  | cons h _ ih => exact .cons h ih

theorem of_al {l l' : List Token} (h : Al l l') : List.Forall₂ Alike l l' := by
  induction h with
  | nil => exact .nil
  | cons h _ ih => exact .cons h ih

theorem top_alike {l l2 r : List Token} {a : Option (TopLevelCommand Str)} {b b' : DefaultBuilder.State}
    (h : Reads (B := DefaultBuilder) .top b l a r b') (e : Al l l2) :
    ∃ a2 r2, Reads (B := DefaultBuilder) .top b l2 a2 r2 b' ∧ Al r r2 ∧ a.map skeleton = a2.map skeleton := by
  obtain ⟨x, r2, h1, h2, h3⟩ := reads_alike (K := unitCore) (fun _ _ => rfl) (top_shape h) .Star [] l2 trivial e
  have h3 : a.map skeleton = x := h3
  obtain ⟨a2, h4, h5⟩ := shape_top (b := b) (b' := b') h1
  exact ⟨a2, r2, h5, h2, h3.trans h4.symm⟩

/-- C56: if two parsers have tokens before them that are alike, what one accepts as the next command the other accepts
too, as the same tree up to texts, and then again what they have before them is alike. -/
theorem C56_command (s s' : PSt CIter DefaultBuilder) (h : List.Forall₂ Alike s.tokens s'.tokens)
    (a : Option (TopLevelCommand Str)) (r : List Token) (hp : Parses .completeCommand s a r ()) :
    ∃ a' r', Parses .completeCommand s' a' r' () ∧ List.Forall₂ Alike r r' ∧ a.map skeleton = a'.map skeleton := by
  obtain ⟨a2, r2, h1, h2, h3⟩ := top_alike (top_iff.1 hp) (al_of h)
  exact ⟨a2, r2, top_iff.2 h1, of_al h2, h3⟩

theorem prog_alike {l l2 : List Token} {b : DefaultBuilder.State} {cs} (h : Prog (B := DefaultBuilder) b l cs) (e : Al l l2) :
    ∃ cs2, Prog (B := DefaultBuilder) b l2 cs2 ∧ cs.map skeleton = cs2.map skeleton := by
  induction h generalizing l2 with
  | done h =>
    obtain ⟨a2, r2, h1, h2, h3⟩ := top_alike h e
    cases a2 with
    | none => exact ⟨[], .done h1, rfl⟩
    | some c => simp at h3
  | cons h _ ih =>
    obtain ⟨a2, r2, h1, h2, h3⟩ := top_alike h e
    cases a2 with
    | none => simp at h3
    | some c =>
      obtain ⟨cs2, h4, h5⟩ := ih h2
      simp only [Option.map_some, Option.some.injEq] at h3
      exact ⟨c :: cs2, .cons h1 h4, by simp [h3, h5]⟩

/-- C56: two source texts with alike tokens parse to the same trees up to texts. -/
theorem C56_same_shape (cc : CharClass) (src src' : Str) (h : List.Forall₂ Alike (lex cc src) (lex cc src'))
    (cs : List (TopLevelCommand Str)) (hp : ParsesTo cc src cs) :
    ∃ cs', ParsesTo cc src' cs' ∧ cs'.map skeleton = cs.map skeleton := by
  obtain ⟨cs2, h1, h2⟩ := prog_alike ((parsesTo_iff (b := ())).1 hp) (al_of h)
  exact ⟨cs2, parsesTo_iff.2 h1, h2.symm⟩

/-- C56: either both are scripts or neither is. -/
theorem C56_both_accepted (cc : CharClass) (src src' : Str) (h : List.Forall₂ Alike (lex cc src) (lex cc src')) :
    (∃ cs, ParsesTo cc src cs) ↔ ∃ cs, ParsesTo cc src' cs := by
  constructor
  · rintro ⟨cs, hp⟩
    obtain ⟨cs', h1, -⟩ := C56_same_shape cc src src' h cs hp
    exact ⟨cs', h1⟩
  · rintro ⟨cs, hp⟩
    obtain ⟨cs', h1, -⟩ := C56_same_shape cc src' src (of_al (al_of h).symm) cs hp
    exact ⟨cs', h1⟩

/-! ## An example and the conditions -/

/-- A test for `Alike`. -/
def alikeB : Token → Token → Bool
  | .Name x, .Name y => x = y || decide (x ∉ keywords ∧ y ∉ keywords) &&
      x.any (fun c => decide (c ∉ "0123456789+-".toList)) && y.any (fun c => decide (c ∉ "0123456789+-".toList))
  | .Literal x, .Literal y => x = y || decide (x ∉ keywords ∧ y ∉ keywords) &&
      x.any (fun c => decide (c ∉ "0123456789abcdefABCDEFxX+-".toList)) &&
      y.any (fun c => decide (c ∉ "0123456789abcdefABCDEFxX+-".toList))
  | .Whitespace x, .Whitespace y => x = y ||
      x.any (fun c => decide (c ∉ "0123456789+-".toList)) && y.any (fun c => decide (c ∉ "0123456789+-".toList))
  | t, t' => decide (t = t' ∧ t ≠ .DLess ∧ t ≠ .DLessDash)

theorem alikeB_sound {t t' : Token} (h : alikeB t t' = true) : Alike t t' := by
  unfold alikeB at h
  split at h
  · simp only [Bool.or_eq_true, Bool.and_eq_true, decide_eq_true_eq, List.any_eq_true] at h
    rcases h with rfl | ⟨⟨⟨h1, h2⟩, h3⟩, h4⟩
    · exact .same nofun nofun
    · exact .name h1 h2 h3 h4
  · simp only [Bool.or_eq_true, Bool.and_eq_true, decide_eq_true_eq, List.any_eq_true] at h
    rcases h with rfl | ⟨⟨⟨h1, h2⟩, h3⟩, h4⟩
    · exact .same nofun nofun
    · exact .text h1 h2 h3 h4
  · simp only [Bool.or_eq_true, Bool.and_eq_true, decide_eq_true_eq, List.any_eq_true] at h
    rcases h with rfl | ⟨h3, h4⟩
    · exact .same nofun nofun
    · exact .blank h3 h4
  · obtain ⟨rfl, h1, h2⟩ := of_decide_eq_true h
    exact .same h1 h2

/-- A test for lists. -/
def alikeL : List Token → List Token → Bool
  | [], [] => true
  | t :: l, t' :: l' => alikeB t t' && alikeL l l'
  | _, _ => false

theorem alikeL_sound : ∀ {l l' : List Token}, alikeL l l' = true → List.Forall₂ Alike l l'
  | [], [], _ => .nil
  | t :: l, t' :: l', h => by
    simp only [alikeL, Bool.and_eq_true] at h
    exact .cons (alikeB_sound h.1) (alikeL_sound h.2)

/-- The example: names, texts and the widths of blanks changed. -/
def renamedFrom : String := "if [ -n \"$file\" ]; then cp  './a b' $((n + 1)) 2>log | sort; else f=`ls ${dir:-here}`; fi\n"
/-- The example: names, texts and the widths of blanks changed. -/
def renamedTo : String := "if [ -k \"$y_ou\" ]; then mv\t './q zz' $((i + 1))   2>out | uniq; else  g=`who ${t:-w_w}`; fi\n"

/-- Non-trivial: a command with quotes, arithmetic, a descriptor, backticks and a default. -/
theorem renamed_alike : List.Forall₂ Alike (lex ascii renamedFrom.toList) (lex ascii renamedTo.toList) :=
  alikeL_sound (by decide +kernel)

theorem renamed_parses : ∃ cs, ParsesTo ascii renamedFrom.toList cs ∧ cs.length = 1 :=
  commandCount_sound (by decide +kernel)

/-- The conditions are needed: a here-document ends where the text of a line is its delimiter; `if` is not like `fo`;
numbers are special in arithmetic and after `<&`. -/
theorem C56_conditions_needed :
    commandCount "cat <<E\nE\nx\n" = some 2 ∧ commandCount "cat <<E\nF\nx\n" = some 1 ∧
    commandCount "fo" = some 1 ∧ commandCount "if" = none ∧
    commandCount "a $((1))" = some 1 ∧ commandCount "a $((.))" = none ∧
    commandCount "a <&1" = some 1 ∧ commandCount "a <&." = none := by
  refine ⟨?_, ?_, ?_, ?_, ?_, ?_, ?_, ?_⟩ <;> decide +kernel

end Conch
