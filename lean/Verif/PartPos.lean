import Verif.PropsBuilder
/-!
# When the tokens in all the streams that are read keep their positions
-/
namespace Conch
open Spec

/-- No backslash is removed from the body of a pair of backticks that, after the removal, still
contains backticks. -/
def Spec.SimpleBackticks (l : List PTok) : Prop :=
  ∀ before p xs q after, l = before ++ (p, .Backtick) :: (xs ++ (q, .Backtick) :: after) →
    Body .Backtick xs → unescape xs = xs ∨ ∀ x ∈ unescape xs, x.2 ≠ .Backtick

/-- After a here-document operator, further operators in the same line (up to a newline outside of
quotes and parentheses) are not inside quotes or parentheses that start after it. -/
def Spec.FlatHere (l : List PTok) : Prop :=
  ∀ before o line after, l = before ++ o :: (line ++ after) → HeredocOp o.2 → Units line after →
    ∀ a x b, line = a ++ x :: b → HeredocOp x.2 → Units a (x :: (b ++ after))

/-- Inputs for which all positions are true: without here-documents and with simple backticks, or with
`<<` here-documents but without backticks and without operators nested in the line of an operator. -/
def Spec.TruePositions (ts : List Token) : Prop :=
  ((∀ t ∈ ts, ¬ HeredocOp t) ∧ SimpleBackticks (annotate .new ts)) ∨
  ((∀ t ∈ ts, t ≠ .Backtick ∧ t ≠ .DLessDash) ∧ FlatHere (annotate .new ts))

/-- All the streams that come from `it0` hold its tokens, with their positions, and end at the position
of one of them, or where `it0` ends. -/
def Spec.Keeps (it0 : AIter) : Prop :=
  ∀ it, Part it0 it → (∀ x ∈ it.rest, x ∈ it0.rest) ∧
    (it.endPos = it0.endPos ∨ it.endPos ∈ it0.rest.map (·.1))

theorem contiguous_cons {x : PTok} {l : List PTok} {e : SourcePos} (h : Contiguous (x :: l) e) :
    Contiguous l e := by
  cases l with
  | nil => trivial
  | cons y l => exact h.2

theorem contiguous_left {a b : List PTok} {y : PTok} {e : SourcePos}
    (h : Contiguous (a ++ y :: b) e) : Contiguous a y.1 := by
  induction a with
  | nil => trivial
  | cons x a ih =>
    cases a with
    | nil => exact h.1
    | cons z a => exact ⟨h.1, ih (contiguous_cons h)⟩

theorem contiguous_right {a b : List PTok} {e : SourcePos} (h : Contiguous (a ++ b) e) : Contiguous b e := by
  induction a with
  | nil => exact h
  | cons x a ih => exact ih (contiguous_cons h)

theorem contiguous_prefix {a b : List PTok} {e : SourcePos} (h : Contiguous (a ++ b) e) :
    ∃ e', Contiguous a e' := by
  cases b with
  | nil => exact ⟨e, by simpa using h⟩
  | cons y b => exact ⟨_, contiguous_left h⟩

theorem annotate_of_contiguous {x : PTok} {l : List PTok} {e : SourcePos} (h : Contiguous (x :: l) e) :
    annotate x.1 ((x :: l).map (·.2)) = x :: l := by
  induction l generalizing x with
  | nil => rfl
  | cons y l ih =>
    have := ih h.2
    rw [← h.1] at this
    show (x.1, x.2) :: annotate (x.1.advance x.2) ((y :: l).map (·.2)) = _
    rw [this]

theorem annotate_pos_of_contiguous {a b : List PTok} {e e' : SourcePos} (h : Contiguous a e) :
    annotate (AIter.pos ⟨a ++ b, e'⟩) (a.map (·.2)) = a := by
  cases a with
  | nil => rfl
  | cons x a => exact annotate_of_contiguous h

/-! ## Units are unique -/

theorem topUnit_unique {u r u' r' : List PTok} (h : TopUnit u r) (h' : TopUnit u' r') (he : u ++ r = u' ++ r') :
    u = u' ∧ r = r' := by
  have h1 := takeBalanced_unit h .new
  have h2 := takeBalanced_unit h' .new
  rw [he, h2] at h1
  simp only [Prod.mk.injEq, AIter.mk.injEq] at h1
  obtain ⟨-, rfl, -⟩ := h1
  exact ⟨List.append_cancel_right he, rfl⟩

theorem topUnit_ordinary {t : PTok} {u l r : List PTok} (ht : Ordinary none t.2) (hu : u ≠ []) (h : TopUnit u r)
    (he : u ++ r = t :: l) : u = [t] :=
  (topUnit_unique h (TopUnit.plain (rest := l) ht) he).1

theorem units_cancel {a w r : List PTok} (h : Units a (w ++ r)) (h' : Units (a ++ w) r) : Units w r := by
  generalize hs : w ++ r = s at h
  induction h with
  | nil => exact h'
  | @cons u v s h1 h2 h3 _ ih =>
    subst hs
    generalize hz : u ++ v ++ w = z at h'
    cases h' with
    | nil => simp at hz; exact absurd hz.1 h1
    | @cons u' v' _ h4 h5 h6 h7 =>
      obtain ⟨rfl, h8⟩ := topUnit_unique h3 h6 (by rw [← List.append_assoc u' v' r, ← hz]; simp)
      rw [List.append_assoc] at hz
      obtain rfl := List.append_cancel_left hz
      exact ih h7 rfl

/-- The end, or a newline. -/
def Stop (s : List PTok) : Prop := s = [] ∨ ∃ q r, s = (q, .Newline) :: r

theorem units_stop {u v s : List PTok} (hu : u ≠ []) (hn : ∀ p, u ≠ [(p, .Newline)]) (h : TopUnit u v)
    (hs : Stop s) (he : u ++ v = s) : False := by
  rcases hs with rfl | ⟨q, r, rfl⟩
  · simp at he; exact hu he.1
  · exact hn q (topUnit_ordinary (t := (q, .Newline)) ordinary_newline hu h he)

theorem units_unique {u s u' s' : List PTok} (h : Units u s) (h' : Units u' s') (hs : Stop s) (hs' : Stop s')
    (he : u ++ s = u' ++ s') : u = u' := by
  induction h generalizing u' with
  | nil =>
    cases h' with
    | nil => rfl
    | cons h1 h2 h3 h4 => exact (units_stop h1 h2 h3 hs (by simpa using he.symm)).elim
  | @cons u v s h1 h2 h3 h4 ih =>
    cases h' with
    | nil => exact (units_stop h1 h2 h3 hs' (by simpa using he)).elim
    | @cons u1 v1 _ h5 h6 h7 h8 =>
      obtain ⟨rfl, h9⟩ := topUnit_unique h3 h7 (by simpa using he)
      rw [ih h8 hs h9]

theorem LogicalLine.stop {l r : List PTok} (h : LogicalLine l r) :
    ∃ u s, l ++ r = u ++ s ∧ Units u s ∧ Stop s ∧
      ((∃ q, s = (q, .Newline) :: r ∧ l = u ++ [(q, .Newline)]) ∨ (s = [] ∧ r = [] ∧ l = u)) := by
  rcases h with ⟨u, q, rfl, h⟩ | ⟨h, rfl⟩
  · exact ⟨u, _, by simp, h, .inr ⟨q, r, rfl⟩, .inl ⟨q, rfl, rfl⟩⟩
  · exact ⟨l, [], by simp, h, .inl rfl, .inr ⟨rfl, rfl, rfl⟩⟩

theorem logicalLine_unique {l r l' r' : List PTok} (h : LogicalLine l r) (h' : LogicalLine l' r')
    (he : l ++ r = l' ++ r') : l = l' ∧ r = r' := by
  obtain ⟨u, s, h1, h2, h3, h4⟩ := LogicalLine.stop h
  obtain ⟨u', s', h1', h2', h3', h4'⟩ := LogicalLine.stop h'
  obtain rfl := units_unique h2 h2' h3 h3' (by rw [← h1, ← h1', he])
  have : l = l' := by
    rw [h1, h1'] at he
    obtain rfl := List.append_cancel_left he
    rcases h4 with ⟨q, rfl, rfl⟩ | ⟨rfl, rfl, rfl⟩ <;> rcases h4' with ⟨q', hq, rfl⟩ | ⟨hq, rfl, rfl⟩
    · cases hq; rfl
    · cases hq
    · cases hq
    · rfl
  subst this
  exact ⟨rfl, List.append_cancel_left he⟩

/-! ## What follows does not matter -/

theorem topUnit_head {u s s' : List PTok} (h : TopUnit u s) (hs : s ≠ []) (he : s'.head?.map (·.2) = s.head?.map (·.2)) :
    TopUnit u s' := by
  cases h with
  | empty => exact absurd rfl hs
  | plain h => exact .plain h
  | escape => exact .escape
  | lastBackslash => exact absurd rfl hs
  | nested h1 h2 => exact .nested h1 h2
  | brace h => exact .brace h
  | dollarParen h => exact .dollarParen h
  | dollar h1 h2 => exact .dollar (by rwa [he]) (by rwa [he])

theorem units_head {u s s' : List PTok} (h : Units u s) (hs : s ≠ []) (he : s'.head?.map (·.2) = s.head?.map (·.2)) :
    Units u s' := by
  induction h with
  | nil => exact .nil
  | @cons u v s h1 h2 h3 _ ih =>
    refine .cons h1 h2 (topUnit_head h3 (by simp [hs]) ?_) (ih hs he)
    cases v with
    | nil => exact he
    | cons x v => rfl

theorem topUnit_newline {u w s : List PTok} {q : SourcePos} (h : TopUnit u []) (he : u = w ++ [(q, .Newline)]) :
    TopUnit u s := by
  have hl : (u.getLast?.map (·.2)) = some .Newline := by simp [he]
  cases h with
  | empty => simp at hl
  | plain h => exact .plain h
  | escape => exact .escape
  | lastBackslash => simp at hl
  | nested h1 h2 => exact .nested h1 h2
  | brace h => exact .brace h
  | dollarParen h => exact .dollarParen h
  | dollar h1 h2 => simp at hl

theorem units_newline {u w s : List PTok} {q : SourcePos} (h : Units u []) (he : u = w ++ [(q, .Newline)]) :
    Units u s := by
  generalize hr : ([] : List PTok) = r at h
  induction h generalizing w with
  | nil => simp at he
  | @cons u v r h1 h2 h3 h4 ih =>
    subst hr
    by_cases hv : v = []
    · subst hv
      refine .cons h1 h2 ?_ .nil
      simp only [List.append_nil] at h3 he
      exact topUnit_newline h3 he
    · have hl : (v.getLast?.map (·.2)) = some .Newline ∧ ∃ w' , v = w' ++ [(q, .Newline)] := by
        rcases List.eq_nil_or_concat v with h | ⟨w', y, h⟩
        · exact absurd h hv
        · rw [List.concat_eq_append] at h
          subst h
          rw [← List.append_assoc] at he
          have := List.append_inj_right' he rfl
          simp at this
          subst this
          exact ⟨by simp, w', rfl⟩
      obtain ⟨-, w', hw⟩ := hl
      refine .cons h1 h2 (topUnit_head h3 (by simp [hv]) ?_) (ih hw rfl)
      cases v with
      | nil => exact absurd rfl hv
      | cons _ _ => rfl

theorem LogicalLine.other {l r r' : List PTok} (h : LogicalLine l r) (hr : r = [] → r' = []) : LogicalLine l r' := by
  rcases h with ⟨u, q, rfl, h⟩ | ⟨h, rfl⟩
  · exact .inl ⟨u, q, rfl, units_head h (by simp) rfl⟩
  · exact .inr ⟨h, hr rfl⟩

theorem FlatHere.suffix {a b : List PTok} (h : FlatHere (a ++ b)) : FlatHere b := by
  intro before o line after he ho hu x y z hl hy
  exact h (a ++ before) o line after (by rw [he]; simp) ho hu x y z hl hy

theorem FlatHere.lines {a b : List PTok} (h : FlatHere (a ++ b))
    (ha : a = [] ∨ (∃ a' q, a = a' ++ [(q, .Newline)]) ∨ b = []) : FlatHere a := by
  intro before o line after he ho hu x y z hl hy
  rcases ha with rfl | ⟨a', q, ha⟩ | rfl
  · simp at he
  · have hu' : Units line (after ++ b) := by
      cases after with
      | cons t after => exact units_head hu (by simp) rfl
      | nil =>
        subst hl
        rw [List.append_nil] at he
        rcases List.eq_nil_or_concat (y :: z) with hw | ⟨w', t, hw⟩
        · cases hw
        · rw [List.concat_eq_append] at hw
          rw [he, hw] at ha
          have ha : (before ++ o :: (x ++ w')) ++ [t] = a' ++ [(q, .Newline)] := by simpa using ha
          have := List.append_inj_right' ha rfl
          simp at this
          subst this
          exact units_newline (w := x ++ w') (q := q) hu (by rw [hw]; simp)
    have := h before o line (after ++ b) (by rw [he]; simp) ho hu' x y z hl hy
    exact units_head this (by simp) rfl
  · rw [List.append_nil] at h
    exact h before o line after he ho hu x y z hl hy

/-! ## Here-documents -/

theorem bodyLines_lines {e e' : SourcePos} {l r : List PTok} {cs} (h : BodyLines false e l cs r)
    (hc : Contiguous l e') : ∃ w z, l = w ++ (z ++ r) ∧ (cs.flatMap fun c => annotate c.2 c.1) = w ∧
      (w = [] ∨ (∃ w' q, w = w' ++ [(q, .Newline)]) ∨ z ++ r = []) := by
  induction h with
  | @delim c q r h => exact ⟨[], c ++ [(q, .Newline)], by simp, rfl, .inl rfl⟩
  | @eof c h => exact ⟨[], c, by simp, rfl, .inl rfl⟩
  | @line c q l p cs r h1 h2 _ ih =>
    have h3 : Contiguous ((c ++ [(q, .Newline)]) ++ l) e' := by simpa using hc
    obtain ⟨e1, h4⟩ := contiguous_prefix h3
    obtain ⟨w, z, h5, h6, h7⟩ := ih (contiguous_right h3)
    refine ⟨c ++ (q, .Newline) :: w, z, by rw [h5]; simp, ?_, ?_⟩
    · rw [List.flatMap_cons, h6, show p = _ from h2]
      have := annotate_pos_of_contiguous (b := l) (e' := e) h4
      simp only [List.append_assoc, List.singleton_append, List.map_append, List.map_cons, List.map_nil] at this
      show annotate (AIter.pos ⟨c ++ (q, .Newline) :: l, e⟩) (c.map (·.2) ++ [.Newline]) ++ w = _
      rw [this]; simp
    · rcases h7 with rfl | ⟨w', q', rfl⟩ | h7
      · exact .inr (.inl ⟨c, q, rfl⟩)
      · exact .inr (.inl ⟨c ++ (q, .Newline) :: w', q', by simp⟩)
      · exact .inr (.inr h7)
  | @lastLine c p h1 h2 =>
    refine ⟨c, [], by simp, ?_, .inr (.inr rfl)⟩
    have := annotate_pos_of_contiguous (b := []) (e' := e) hc
    rw [List.append_nil] at this
    simp only [List.flatMap_cons, List.flatMap_nil, List.append_nil]
    rw [show p = _ from h2]
    exact this

/-- A stream made of two contiguous pieces of `it0`, where the lines of the operators in the first piece
end with it. -/
structure HereOk (it0 it : AIter) (u v : List PTok) : Prop where
  eq : it.rest = u ++ v
  left : ∃ e, Contiguous u e
  right : ∃ e, Contiguous v e
  mem : ∀ x ∈ u ++ v, x ∈ it0.rest
  ends : it.endPos = it0.endPos ∨ it.endPos ∈ it0.rest.map (·.1)
  ops : ∀ u1 o u2, u = u1 ++ o :: u2 → HeredocOp o.2 → LogicalLine u2 v
  flat : FlatHere v

theorem HereOk.pos {it0 : AIter} {a b : List PTok} {e : SourcePos} (hm : ∀ x ∈ a ++ b, x ∈ it0.rest)
    (he : e = it0.endPos ∨ e ∈ it0.rest.map (·.1)) :
    AIter.pos ⟨b, e⟩ = it0.endPos ∨ AIter.pos ⟨b, e⟩ ∈ it0.rest.map (·.1) := by
  cases b with
  | nil => exact he
  | cons y b => exact .inr (List.mem_map_of_mem (hm y (by simp)))

theorem HereOk.here {it0 it body : AIter} {p : SourcePos} {t : Token} {r : List PTok} {e : SourcePos}
    {u v : List PTok} (h : HereOk it0 ⟨(p, t) :: r, e⟩ u v) (ht : HeredocOp t) (hd : t ≠ .DLessDash)
    (hh : Here t ⟨r, e⟩ it body) :
    (∃ u v, HereOk it0 it u v) ∧ ∃ u v, HereOk it0 body u v := by
  obtain ⟨d, sv, l, cs, r', h1, h2, h3, rfl, rfl⟩ := hh
  simp only at h1 h2 h3 ⊢
  subst h1
  have hfalse : decide (t = Token.DLessDash) = false := by simp [hd]
  rw [hfalse] at h3
  -- the rest of the line, and the lines after it
  have key : (∃ e, Contiguous (d ++ sv) e) ∧ (∃ e, Contiguous l e) ∧ FlatHere l ∧
      ∀ u1 o u2, sv = u1 ++ o :: u2 → HeredocOp o.2 → LogicalLine u2 l := by
    have he := h.eq
    obtain ⟨e1, hu⟩ := h.left
    obtain ⟨e2, hv⟩ := h.right
    have hf := h.flat
    have ho := h.ops
    cases u with
    | cons x u =>
      simp only [List.cons_append, List.cons.injEq] at he
      obtain ⟨rfl, he⟩ := he
      have hl := ho [] _ u rfl ht
      obtain ⟨rfl, rfl⟩ := logicalLine_unique h2 hl (by rw [← he]; simp)
      refine ⟨⟨e1, contiguous_cons hu⟩, ⟨e2, hv⟩, hf, ?_⟩
      rintro u1 o u2 rfl ho'
      exact ho ((p, t) :: (d ++ u1)) o u2 (by simp) ho'
    | nil =>
      simp only [List.nil_append] at he
      subst he
      have hc : Contiguous ((d ++ sv) ++ l) e2 := by simpa using contiguous_cons hv
      refine ⟨contiguous_prefix hc, ⟨e2, contiguous_right hc⟩,
        FlatHere.suffix (a := (p, t) :: (d ++ sv)) (by simpa using hf), ?_⟩
      rintro u1 o u2 rfl ho'
      have main : ∀ line after b, Units line after → d ++ (u1 ++ o :: u2) ++ l = line ++ after →
          line = (d ++ u1) ++ o :: b → Units b after := by
        intro line after b hu heq hl
        have := hf [] (p, t) line after (by simpa using heq) ht hu (d ++ u1) o b hl ho'
        subst hl
        have h5 : Units (o :: b) after := units_cancel (w := o :: b) this hu
        generalize hz : o :: b = z at h5
        cases h5 with
        | nil => cases hz
        | @cons x y _ h6 h7 h8 h9 =>
          have : Ordinary none o.2 := by
            rcases ho' with h | h <;> rw [h] <;> exact ⟨by simp, by simp, by rintro c' ⟨⟩⟩
          obtain rfl := topUnit_ordinary (l := b ++ after) this h6 h8 (by
            rw [← List.append_assoc, ← hz]; rfl)
          simp at hz
          rw [hz]; exact h9
      rcases h2 with ⟨w, q, h2, h4⟩ | ⟨h4, rfl⟩
      · rcases List.eq_nil_or_concat u2 with rfl | ⟨u3, y, rfl⟩
        · -- the operator would be the newline
          have : d ++ u1 ++ [o] = w ++ [(q, .Newline)] := by simpa using h2
          have := List.append_inj_right' this rfl
          simp at this
          subst this
          rcases ho' with h | h <;> cases h
        · rw [List.concat_eq_append] at *
          have h5 : (d ++ (u1 ++ o :: u3)) ++ [y] = w ++ [(q, .Newline)] := by simpa using h2
          have h6 := List.append_inj_right' h5 rfl
          have h7 := List.append_inj_left' h5 rfl
          simp at h6
          subst h6 h7
          exact .inl ⟨u3, q, rfl, main _ _ u3 h4 (by simp) (by simp)⟩
      · exact .inr ⟨main _ _ u2 h4 (by simp) (by simp), rfl⟩
  have hm := h.mem
  rw [← h.eq] at hm
  obtain ⟨⟨e1, k1⟩, ⟨e2, k2⟩, k3, k4⟩ := key
  have hsv := contiguous_right k1
  obtain ⟨w, z, rfl, h5, h6⟩ := bodyLines_lines h3 k2
  refine ⟨⟨sv, r', ?_, ⟨_, hsv⟩, ⟨e2, ?_⟩, ?_, h.ends, ?_, ?_⟩, [], w, ?_, ⟨e, trivial⟩, ?_, ?_, ?_, ?_, ?_⟩
  · show annotate _ _ ++ r' = _
    rw [annotate_pos_of_contiguous hsv]
  · exact contiguous_right (contiguous_right k2)
  · intro x hx
    exact hm x (by simp at hx ⊢; grind)
  · intro u1 o u2 h7 ho
    exact LogicalLine.other (k4 u1 o u2 h7 ho) (by simp)
  · exact FlatHere.suffix (FlatHere.suffix k3)
  · simpa using h5
  · exact contiguous_prefix k2
  · intro x hx
    exact hm x (by simp at hx ⊢; grind)
  · refine HereOk.pos (a := (p, t) :: (d ++ sv)) ?_ h.ends
    intro x hx
    exact hm x (by simpa using hx)
  · intro u1 o u2 h7; simp at h7
  · exact FlatHere.lines k3 h6

theorem keeps_here {it0 : AIter} (hb : ∀ x ∈ it0.rest, x.2 ≠ .Backtick ∧ x.2 ≠ .DLessDash)
    (hc : Contiguous it0.rest it0.endPos) (hf : FlatHere it0.rest) : Keeps it0 := by
  have key : ∀ it, Part it0 it → ∃ u v, HereOk it0 it u v := by
    intro it h
    induction h with
    | all => exact ⟨[], it0.rest, rfl, ⟨it0.endPos, trivial⟩, ⟨_, hc⟩, by simp, .inl rfl, by simp, hf⟩
    | @tail x r e _ ih =>
      obtain ⟨u, v, h⟩ := ih
      have he := h.eq
      cases u with
      | nil =>
        simp only [List.nil_append] at he
        subst he
        exact ⟨[], r, rfl, h.left, h.right.imp fun _ h => contiguous_cons h, fun y hy => h.mem y (by simp at hy ⊢; grind),
          h.ends, by simp, FlatHere.suffix (a := [x]) h.flat⟩
      | cons y u =>
        simp only [List.cons_append, List.cons.injEq] at he
        obtain ⟨rfl, rfl⟩ := he
        exact ⟨u, v, rfl, h.left.imp fun _ h => contiguous_cons h, h.right, fun z hz => h.mem z (by simp at hz ⊢; grind),
          h.ends, fun u1 o u2 h1 h2 => h.ops (x :: u1) o u2 (by rw [h1]; rfl) h2, h.flat⟩
    | @backticks p q xs ys e sub _ _ _ _ ih =>
      obtain ⟨u, v, h⟩ := ih
      exact absurd rfl (hb _ (h.mem (p, .Backtick) (by rw [← h.eq]; simp))).1
    | @hereRest p t r e it body _ ht hh ih =>
      obtain ⟨u, v, h⟩ := ih
      exact (h.here ht (hb _ (h.mem (p, t) (by rw [← h.eq]; simp))).2 hh).1
    | @hereBody p t r e it body _ ht hh ih =>
      obtain ⟨u, v, h⟩ := ih
      exact (h.here ht (hb _ (h.mem (p, t) (by rw [← h.eq]; simp))).2 hh).2
  intro it h
  obtain ⟨u, v, h⟩ := key it h
  exact ⟨by rw [h.eq]; exact h.mem, h.ends⟩

/-! ## Backticks -/

/-- A stream with tokens of `it0`, without here-documents and with simple backticks. -/
structure PosOk (it0 it : AIter) : Prop where
  mem : ∀ x ∈ it.rest, x ∈ it0.rest
  ends : it.endPos = it0.endPos ∨ it.endPos ∈ it0.rest.map (·.1)
  backticks : (SimpleBackticks it.rest ∧ ∃ e, Contiguous it.rest e) ∨
    ∀ x ∈ it.rest, x.2 ≠ .Backtick

theorem keeps_backticks {it0 : AIter} (hh : ∀ x ∈ it0.rest, ¬ HeredocOp x.2)
    (hc : Contiguous it0.rest it0.endPos) (hf : SimpleBackticks it0.rest) : Keeps it0 := by
  have key : ∀ it, Part it0 it → PosOk it0 it := by
    intro it h
    induction h with
    | all => exact ⟨fun _ h => h, .inl rfl, .inl ⟨hf, _, hc⟩⟩
    | @tail x r e _ ih =>
      obtain ⟨h2, h3, h4⟩ := ih
      refine ⟨fun y hy => h2 y (by simp [hy]), h3, ?_⟩
      rcases h4 with ⟨h4, e', h5⟩ | h4
      · refine .inl ⟨?_, e', contiguous_cons h5⟩
        intro before p xs q after heq hb
        exact h4 (x :: before) p xs q after (by simp at heq ⊢; exact heq) hb
      · exact .inr fun y hy => h4 y (by simp [hy])
    | @backticks p q xs ys e sub _ hb _ hs ih =>
      obtain ⟨h2, h3, h4⟩ := ih
      rcases h4 with ⟨h4, e', h5⟩ | h4
      · have hc : Contiguous xs q := contiguous_left (contiguous_cons h5)
        obtain rfl := hs hc
        refine ⟨fun x hx => h2 x (by simp [unescape_mem hx]),
          HereOk.pos (a := (p, .Backtick) :: (xs ++ [(q, .Backtick)])) (by simpa using h2) h3, ?_⟩
        rcases h4 [] p xs q ys rfl hb with h | h
        · refine .inl ⟨?_, q, ?_⟩
          · intro before p' xs' q' after heq hb'
            rw [h] at heq
            simp only at heq
            refine h4 ((p, .Backtick) :: before) p' xs' q' (after ++ (q, .Backtick) :: ys) ?_ hb'
            simp [heq]
          · rw [h]; exact hc
        · exact .inr h
      · exact absurd rfl (h4 (p, .Backtick) (by simp))
    | @hereRest p t r e it body _ ht _ ih => exact absurd ht (hh _ (ih.mem (p, t) (by simp)))
    | @hereBody p t r e it body _ ht _ ih => exact absurd ht (hh _ (ih.mem (p, t) (by simp)))
  exact fun it h => ⟨(key it h).mem, (key it h).ends⟩

theorem keeps_true {ts : List Token} (h : TruePositions ts) : Keeps (AIter.ofTokens ts) := by
  have hm : ∀ x ∈ annotate .new ts, x.2 ∈ ts := by
    intro x hx
    rw [← annotate_toks .new ts]
    exact List.mem_map_of_mem hx
  have hc := annotate_contiguous .new ts
  rcases h with ⟨h1, h2⟩ | ⟨h1, h2⟩
  · exact keeps_backticks (fun x hx => h1 _ (hm x hx)) hc h2
  · exact keeps_here (fun x hx => h1 _ (hm x hx)) hc h2

end Conch
