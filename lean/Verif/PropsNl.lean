import Verif.NlRead
import Verif.PropsLocal
import Verif.PropsHeredoc
/-!
# C52: a newline at the end of a script does not matter
-/
namespace Conch
open Spec Gram

namespace Gram
variable {c : Bool} {l l' r : List Token}

theorem blanks_nl {x : List Token} (hx : x.getLast? ≠ some .Backslash) : ¬ Gram.Blanks (x ++ [.Newline]) := by
  intro h
  have hs : Skip (x ++ [.Newline]) [] := ⟨_, by simp, h, by simp [Gram.NoBlank]⟩
  obtain ⟨bs, y, -, h2, -⟩ := skip_probe hs hx
  simp at h2

theorem blanks_all {x : List Token} (h : Gram.Blanks x) : Skip x [] := ⟨x, by simp, h, by simp [Gram.NoBlank]⟩

/-- A line (or none) that ends at the end of input, or before the newline there. -/
theorem NlEnd.optLine_end {n : Option Nl} (h : NlEnd c l l') (hl : Gram.OptLine l n r) (hr : r.length ≤ c.toNat) :
    ∃ n' r', Gram.OptLine l' n' r' ∧ (r' = [] ∨ r' = [.Newline]) := by
  obtain ⟨x, hx, rfl, rfl⟩ := h
  cases c with
  | false =>
    obtain rfl : r = [] := by simpa using hr
    simp only [nlIf, Bool.not_false, if_true, Bool.false_eq_true, if_false, List.append_nil] at *
    cases hl with
    | some hl =>
      cases hl with
      | newline hb => exact ⟨_, [.Newline], .some (by simpa using Gram.Line.newline (r := [.Newline]) hb), .inr rfl⟩
      | comment hb hc => exact ⟨_, [.Newline], .some (by simpa using Gram.Line.comment (r := [.Newline]) hb hc), .inr rfl⟩
      | lastComment hb hc => exact ⟨_, [], .some (.comment hb hc), .inl rfl⟩
    | none hs hn =>
      obtain ⟨bs, rfl, hb, -⟩ := hs
      exact ⟨_, [], .some (by simpa using Gram.Line.newline (r := []) hb), .inl rfl⟩
  | true =>
    simp only [nlIf, Bool.not_true, if_true, Bool.false_eq_true, if_false, List.append_nil, Bool.toNat_true] at *
    cases hl with
    | some hl =>
      generalize e : x ++ [Token.Newline] = l at hl
      cases hl with
      | @newline bs _ hb =>
        rcases r with _ | ⟨t, _ | ⟨_, _⟩⟩
        · obtain ⟨rfl, -⟩ := List.append_inj' e rfl
          exact ⟨_, [], .none (blanks_all hb) (by simp [Gram.NoLineStart]), .inl rfl⟩
        · have e' : x ++ [.Newline] = (bs ++ [.Newline]) ++ [t] := by simpa using e
          obtain ⟨rfl, -⟩ := List.append_inj' e' rfl
          exact ⟨_, [], .some (.newline hb), .inl rfl⟩
        · simp at hr
      | @comment bs cs _ hb hc =>
        rcases r with _ | ⟨t, _ | ⟨_, _⟩⟩
        · obtain ⟨rfl, -⟩ := List.append_inj' e rfl
          exact ⟨_, [], .some (.lastComment hb hc), .inl rfl⟩
        · have e' : x ++ [.Newline] = (bs ++ .Pound :: cs ++ [.Newline]) ++ [t] := by simpa using e
          obtain ⟨rfl, -⟩ := List.append_inj' e' rfl
          exact ⟨_, [], .some (.comment hb hc), .inl rfl⟩
        · simp at hr
      | @lastComment bs cs hb hc =>
        rcases List.eq_nil_or_concat cs with rfl | ⟨cs, d, rfl⟩
        · have := (List.append_inj' e rfl).2
          simp at this
        · have h2 : x ++ [.Newline] = bs ++ .Pound :: cs ++ [d] := by simpa using e
          have := (List.append_inj' h2 rfl).2
          simp at this
          exact absurd this.symm (hc d (by simp))
    | none hs hn =>
      obtain ⟨bs, y, h1, h2, -⟩ := skip_probe hs hx.last
      subst h2
      cases y with
      | nil => exact absurd rfl (hn _).1
      | cons => simp at hr

theorem NlEnd.lines_end {ns : List Nl} (h : NlEnd c l l') (hl : Gram.Lines l ns r) (hr : r.length ≤ c.toNat) :
    ∃ ns', Gram.Lines l' ns' [] := by
  have last : ∀ {l : List Token} {n r}, Gram.OptLine l n r → (r = [] ∨ r = [.Newline]) → ∃ ns, Gram.Lines l ns [] := by
    intro l n r h hr
    cases h with
    | none hs hn =>
      rcases hr with rfl | rfl
      · exact ⟨_, .nil hs hn⟩
      · exact absurd rfl (hn _).1
    | some hl =>
      have h0 : Gram.Lines [] [] [] := .nil (.refl (by simp [Gram.NoBlank])) (by simp [Gram.NoLineStart])
      rcases hr with rfl | rfl
      · exact ⟨_, .cons hl h0⟩
      · exact ⟨_, .cons hl (.cons (by simpa using Gram.Line.newline (r := []) .nil) h0)⟩
  induction hl generalizing l' with
  | nil hs hn =>
    obtain ⟨n', r', h1, h2⟩ := h.optLine_end (.none hs hn) hr
    exact last h1 h2
  | @cons l n l1 ns r h1 h2 ih =>
    by_cases h3 : c.toNat < l1.length
    · obtain ⟨l2, h4, h5⟩ := h.line h1 h3
      obtain ⟨ns', h6⟩ := ih h4 hr
      exact ⟨_, .cons h5 h6⟩
    · obtain ⟨n', r', h4, h5⟩ := h.optLine_end (.some h1) (by omega)
      exact last h4 h5

theorem NlEnd.sepAfter_end {s : SeparatorKind} {cm : Option Nl} (h : NlEnd c l l') (hp : Gram.SepAfter l s cm r)
    (hr : r.length ≤ c.toNat) :
    ∃ s' cm' r', Gram.SepAfter l' s' cm' r' ∧ (s = .Amp ↔ s' = .Amp) ∧ (r' = [] ∨ r' = [.Newline]) := by
  have line : ∀ {n}, Gram.OptLine l n r → (∀ r, l ≠ .Semi :: r ∧ l ≠ .Amp :: r) →
      ∃ s' cm' r', Gram.SepAfter l' s' cm' r' ∧ s' ≠ .Amp ∧ (r' = [] ∨ r' = [.Newline]) := by
    intro n hl hn
    obtain ⟨n', r', h1, h2⟩ := h.optLine_end hl hr
    cases h1 with
    | some h1 => exact ⟨_, _, _, .newline h1 (h.noSep hn), by simp, h2⟩
    | none h1 h3 => exact ⟨_, _, _, .other h1 h3 (h.noSep hn), by simp, h2⟩
  cases hp with
  | semi h1 =>
    obtain ⟨l1, rfl, h2⟩ := h.cons_ne (by simp)
    obtain ⟨n', r', h3, h4⟩ := h2.optLine_end h1 hr
    exact ⟨_, _, _, .semi h3, by simp, h4⟩
  | amp h1 =>
    obtain ⟨l1, rfl, h2⟩ := h.cons_ne (by simp)
    obtain ⟨n', r', h3, h4⟩ := h2.optLine_end h1 hr
    exact ⟨_, _, _, .amp h3, by simp, h4⟩
  | newline h1 h2 =>
    obtain ⟨s', cm', r', h3, h4, h5⟩ := line (.some h1) h2
    exact ⟨_, _, _, h3, by simp [h4], h5⟩
  | other h1 h2 h3 =>
    obtain ⟨s', cm', r', h3, h4, h5⟩ := line (.none h1 h2) h3
    exact ⟨_, _, _, h3, by simp [h4], h5⟩

theorem Line.append_eq {n : Nl} (h : Gram.Line l n r) : ∃ v, l = v ++ r := by
  cases h with
  | @newline bs _ hb => exact ⟨bs ++ [.Newline], by simp⟩
  | @comment bs cs _ hb hc => exact ⟨bs ++ .Pound :: cs ++ [.Newline], by simp⟩
  | @lastComment bs cs hb hc => exact ⟨bs ++ .Pound :: cs, by simp⟩

theorem OptLine.append_eq {n : Option Nl} (h : Gram.OptLine l n r) : ∃ v, l = v ++ r := by
  cases h with
  | some h => exact Line.append_eq h
  | none hs hn => obtain ⟨bs, h, -⟩ := hs; exact ⟨bs, h⟩

theorem Lines.append_eq {ns : List Nl} (h : Gram.Lines l ns r) : (∃ v, l = v ++ r) ∧ NoLineStart r := by
  induction h with
  | nil hs hn => obtain ⟨bs, h, -⟩ := hs; exact ⟨⟨bs, h⟩, hn⟩
  | cons h1 h2 ih =>
    obtain ⟨⟨v, rfl⟩, hn⟩ := ih
    obtain ⟨u, rfl⟩ := Line.append_eq h1
    exact ⟨⟨u ++ v, by simp⟩, hn⟩

theorem SepAfter.append_eq {s : SeparatorKind} {cm : Option Nl} (h : Gram.SepAfter l s cm r) : ∃ v, l = v ++ r := by
  cases h with
  | semi h1 => obtain ⟨v, rfl⟩ := OptLine.append_eq h1; exact ⟨.Semi :: v, rfl⟩
  | amp h1 => obtain ⟨v, rfl⟩ := OptLine.append_eq h1; exact ⟨.Amp :: v, rfl⟩
  | newline h1 h2 => exact Line.append_eq h1
  | other h1 h2 h3 => obtain ⟨bs, h, -⟩ := h1; exact ⟨bs, h⟩

/-- What is left after blank lines is more than the newline at the end. -/
theorem NlEnd.lines_lt {ns : List Nl} (h : NlEnd c l l') (hl : Gram.Lines l ns r) (hne : r ≠ []) : c.toNat < r.length := by
  have hpos := List.length_pos_iff.2 hne
  cases c with
  | false => simpa using hpos
  | true =>
    obtain ⟨⟨v, rfl⟩, hn⟩ := Lines.append_eq hl
    obtain ⟨r', -, x, -, rfl, -⟩ := h.suffix (by simp; omega)
    cases x with
    | nil => exact absurd rfl (hn _).1
    | cons => simp [nlIf]

end Gram

section
variable {c : Bool} {l l' r : List Token}

theorem amp_only {pre : List Nl} {list} {s s' : SeparatorKind} {cm cm' : Option Nl} {b b' : DefaultBuilder.State} {a}
    (hs : s = .Amp ↔ s' = .Amp) (h : Gram.Calls (B := DefaultBuilder) (.completeCommand pre list s cm) b a b') :
    Gram.Calls (B := DefaultBuilder) (.completeCommand pre list s' cm') b a b' := by
  cases s <;> cases s' <;> simp at hs <;> exact h

/-- A command that is the last one. -/
theorem top_end {b b' : DefaultBuilder.State} {a : TopLevelCommand Str} (h : NlEnd c l l')
    (hp : Reads (B := DefaultBuilder) .top b l (some a) r b') (hr : r.length ≤ c.toNat) :
    ∃ r', Reads (B := DefaultBuilder) .top b l' (some a) r' b' ∧ (r' = [] ∨ r' = [.Newline]) ∧
      (c.toNat ≤ r.length → ∃ r0, NlEnd c r r0) := by
  cases hp with
  | topCommand h1 h2 h3 =>
    have hlt := h.lines_lt h1 h2
    obtain ⟨l1, e1, g1⟩ := h.lines h1 hlt
    cases h3 with
    | @complete _ _ _ _ l2 _ _ _ _ _ _ h4 h5 h6 =>
      have hle : c.toNat ≤ l2.length := by
        cases c with
        | false => simp
        | true =>
          obtain ⟨x, hx, hx1, -⟩ := id e1
          rcases (h4.strict (z := none) (t1 := []) trivial ⟨probe_none, .inl ⟨x, hx, hx1, hx1⟩⟩).or with h7 | h7
          · have := h7.len; simp at this ⊢; omega
          · simp at h7
      obtain ⟨l3, e3, g3⟩ := h4.nlEnd trivial _ e1 (by simpa [NT.slack] using hle)
      obtain ⟨s', cm', r', g5, g6, g7⟩ := e3.sepAfter_end h5 hr
      refine ⟨r', .topCommand g1 (e1.nonempty' hlt) (.complete g3 g5 (amp_only g6 h6)), g7, fun hc => ?_⟩
      obtain ⟨v, rfl⟩ := SepAfter.append_eq h5
      obtain ⟨r0, -, g8⟩ := e3.suffix hc
      exact ⟨r0, g8⟩

theorem top_none {b : DefaultBuilder.State} {ns : List Nl} (h : Gram.Lines l ns []) :
    Reads (B := DefaultBuilder) .top b l none [] b := by
  by_cases hn : ns = []
  · subst hn; exact .topNone h
  · exact .topComments h hn rfl

theorem prog_blank {b : DefaultBuilder.State} (h : r = [] ∨ r = [.Newline]) : Prog (B := DefaultBuilder) b r [] := by
  have h0 : Gram.Lines [] [] [] := .nil (.refl (by simp [Gram.NoBlank])) (by simp [Gram.NoLineStart])
  rcases h with rfl | rfl
  · exact .done (top_none h0)
  · exact .done (top_none (.cons (by simpa using Gram.Line.newline (r := []) .nil) h0))

theorem prog_short {b : DefaultBuilder.State} {cs} (h : Prog (B := DefaultBuilder) b l cs) (hn : NlEnd c l l')
    (hl : l.length ≤ c.toNat) : cs = [] := by
  cases h with
  | done => rfl
  | cons h _ =>
    cases h with
    | topCommand h1 h2 _ =>
      have := hn.lines_lt h1 h2
      have := h1.le
      omega

theorem prog_nlEnd {b : DefaultBuilder.State} {cs} (h : Prog (B := DefaultBuilder) b l cs) :
    ∀ l', NlEnd c l l' → Prog (B := DefaultBuilder) b l' cs := by
  induction h with
  | @done b l r b' h =>
    intro l' hn
    have key : ∃ ns, Gram.Lines l ns [] := by
      cases h with
      | topNone h => exact ⟨_, h⟩
      | topComments h => exact ⟨_, h⟩
    obtain ⟨ns, key⟩ := key
    obtain ⟨ns', h2⟩ := hn.lines_end key (by simp)
    exact .done (top_none h2)
  | @cons b l a r b' cs h h' ih =>
    intro l' hn
    by_cases hr : c.toNat < r.length
    · obtain ⟨r', e, g⟩ := h.nlEnd trivial _ hn (by simp only [NT.slack]; omega)
      exact .cons g (ih _ e)
    · obtain ⟨r', g, h2, h3⟩ := top_end hn h (by omega)
      have : cs = [] := by
        by_cases hc : c.toNat ≤ r.length
        · obtain ⟨r0, h4⟩ := h3 hc
          exact prog_short h' h4 (by omega)
        · obtain rfl : r = [] := by
            have : c.toNat ≤ 1 := by cases c <;> simp
            exact List.eq_nil_of_length_eq_zero (by omega)
          exact prog_nil h'
      subst this
      exact .cons g (prog_blank h2)
end

/-- **C52.** A newline at the end does not matter: a text parses to some commands exactly if it does
with a newline after it. The text must not contain `<<` (the end of input also ends a here-document,
and the newline belongs to its body) and must not end in a backslash. -/
theorem C52_final_newline (cc : CharClass) (hs : cc.Sane) (p : Str) (hhere : ¬ ['<', '<'] <:+: p)
    (hlast : p.getLast? ≠ some '\\') (cs : List (TopLevelCommand Str)) :
    ParsesTo cc p cs ↔ ParsesTo cc (p ++ ['\n']) cs := by
  let b : DefaultBuilder.State := ()
  have e1 : lex cc (p ++ ['\n']) = lex cc p ++ [.Newline] := by
    rw [lex_line hs p []]; rfl
  rw [parsesTo_iff (b := b), parsesTo_iff (b := b), e1]
  exact ⟨fun h => prog_nlEnd (c := false) h _ ⟨_, lex_plain hhere hlast, by simp [nlIf], rfl⟩,
    fun h => prog_nlEnd (c := true) h _ ⟨_, lex_plain hhere hlast, rfl, by simp [nlIf]⟩⟩

/-- **C52.** Scripts concatenate (C42) whether or not the first one ends with a newline: what follows
on a new line is read as if it was alone. -/
theorem C52_lines_concatenate (cc : CharClass) (hs : cc.Sane) (p q : Str) (cs1 : List (TopLevelCommand Str))
    (hhere : ¬ ['<', '<'] <:+: p) (hlast : p.getLast? ≠ some '\\') (hp : ParsesTo cc p cs1)
    (cs : List (TopLevelCommand Str)) :
    ParsesTo cc (p ++ '\n' :: q) cs ↔ ∃ cs2, ParsesTo cc q cs2 ∧ cs = cs1 ++ cs2 :=
  C42_scripts_concatenate cc hs p q cs1 hhere hlast ((C52_final_newline cc hs p hhere hlast cs1).1 hp) cs

/-- `AllParse cc ps css`: every one of the texts (without `<<`, and not ending in a
backslash) parses, to the commands in the list beside it. -/
inductive Spec.AllParse (cc : CharClass) : List Str → List (List (TopLevelCommand Str)) → Prop
  | nil : AllParse cc [] []
  | cons {p ps cs css} : ¬ ['<', '<'] <:+: p → p.getLast? ≠ some '\\' → ParsesTo cc p cs → AllParse cc ps css →
      AllParse cc (p :: ps) (cs :: css)

/-- **C52.** A file whose lines (or blocks of lines) each parse on their own parses, to their commands
one after the other. -/
theorem C52_blocks (cc : CharClass) (hs : cc.Sane) (ps : List Str) (css : List (List (TopLevelCommand Str)))
    (h : AllParse cc ps css) : ParsesTo cc (ps.flatMap (· ++ ['\n'])) css.flatten := by
  induction h with
  | nil =>
    let b : DefaultBuilder.State := ()
    rw [parsesTo_iff (b := b)]
    exact prog_blank (.inl rfl)
  | @cons p ps cs css h1 h2 h3 _ ih =>
    have := (C52_lines_concatenate cc hs p (ps.flatMap (· ++ ['\n'])) cs h1 h2 h3 (cs ++ css.flatten)).2 ⟨_, ih, rfl⟩
    simpa using this

/-! ## Examples -/

/-- The text of the here-document of the first command, which has nothing else besides its name. -/
def firstBody : List (TopLevelCommand Str) → Option Str
  | .mk (.List ⟨.Single (.Simple ⟨_, [_, .Redirect (.Heredoc _ w)]⟩), _⟩) :: _ => plainWordText w
  | _ => none

/-- Does the first command fail to parse? -/
def firstFails (src : String) : Bool :=
  match (ParserIterator.next ⟨some (PSt.new (I := CIter) (B := DefaultBuilder) (lex ascii src.toList) ())⟩).1 with
  | .ok (some (.error _)) => true
  | _ => false

theorem not_parsesTo {src : String} (h : firstFails src = true) (cs) : ¬ ParsesTo ascii src.toList cs := by
  rintro ⟨p, h1, h2⟩
  unfold firstFails at h
  cases cs with
  | nil => cases h1; rw [h2] at h; cases h
  | cons a cs =>
    cases h1 with
    | cons h3 h4 => rw [h3] at h; cases h

/-- C52: both conditions are needed. The newline after the last line of a here-document without its
delimiter is part of the here-document; a backslash alone is not a command, but with a newline it is a
blank. -/
theorem C52_conditions_needed :
    (∃ cs cs', ParsesTo ascii "cat <<E\na".toList cs ∧ ParsesTo ascii ("cat <<E\na".toList ++ ['\n']) cs' ∧ cs ≠ cs') ∧
    (¬ ∃ cs, ParsesTo ascii "\\".toList cs) ∧ ParsesTo ascii ("\\".toList ++ ['\n']) [] := by
  refine ⟨?_, ?_, ?_⟩
  · have k1 : ((script 10 ⟨some (PSt.new (I := CIter) (B := DefaultBuilder) (lex ascii "cat <<E\na".toList) ())⟩).bind firstBody) =
        some "a".toList := by decide +kernel
    have k2 : ((script 10 ⟨some (PSt.new (I := CIter) (B := DefaultBuilder) (lex ascii ("cat <<E\na".toList ++ ['\n'])) ())⟩).bind firstBody) =
        some "a\n".toList := by decide +kernel
    obtain ⟨cs, h1, h2⟩ := Option.bind_eq_some_iff.1 k1
    obtain ⟨cs', h3, h4⟩ := Option.bind_eq_some_iff.1 k2
    refine ⟨cs, cs', script_sound h1, script_sound h3, ?_⟩
    rintro rfl
    rw [h2] at h4
    revert h4
    decide
  · rintro ⟨cs, h⟩
    exact not_parsesTo (by decide +kernel) cs h
  · have k : (script 10 ⟨some (PSt.new (I := CIter) (B := DefaultBuilder) (lex ascii ("\\".toList ++ ['\n'])) ())⟩).map List.length = some 0 := by
      decide +kernel
    obtain ⟨cs, h1, h2⟩ := Option.map_eq_some_iff.1 k
    obtain rfl := List.eq_nil_of_length_eq_zero h2
    exact script_sound h1

/-- The hypotheses are met by blocks of several lines, also with comments at their end. -/
example : ∃ cs1 cs2, cs1.length = 1 ∧ cs2.length = 2 ∧
    AllParse ascii ["for i in a b # c\ndo echo \"$i\" | tr '\n' x; done & # tail".toList, "a\n( b || c )".toList] [cs1, cs2] ∧
    ParsesTo ascii "for i in a b # c\ndo echo \"$i\" | tr '\n' x; done & # tail\na\n( b || c )\n".toList (cs1 ++ cs2) := by
  obtain ⟨cs1, h1, h2⟩ := commandCount_sound (src := "for i in a b # c\ndo echo \"$i\" | tr '\n' x; done & # tail") (n := 1) (by decide +kernel)
  obtain ⟨cs2, h3, h4⟩ := commandCount_sound (src := "a\n( b || c )") (n := 2) (by decide +kernel)
  have h := AllParse.cons (by decide +kernel) (by decide +kernel) h1 (.cons (by decide +kernel) (by decide +kernel) h3 .nil)
  refine ⟨cs1, cs2, h2, h4, h, ?_⟩
  have := C52_blocks ascii ascii_sane _ _ h
  simpa using this

end Conch
