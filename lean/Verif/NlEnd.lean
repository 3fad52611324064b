import Verif.LocalEnd
/-!
# A newline at the end of input: the lexical part

`NlEnd c l l'`: the token lists are the same up to a last newline, which `l` has if `c` is true and
`l'` has if it is false. Without it they contain no here-document and do not end with a backslash.
-/
namespace Conch.Gram
open Conch

/-- The newline at the end, or nothing. -/
def nlIf (c : Bool) : List Token := if c then [.Newline] else []

/-- The same up to a newline at the end. -/
def NlEnd (c : Bool) (l l' : List Token) : Prop :=
  ∃ x, Plain none x ∧ l = x ++ nlIf c ∧ l' = x ++ nlIf (!c)

@[simp] theorem nlIf_length {c : Bool} : (nlIf c).length = c.toNat := by cases c <;> rfl

namespace NlEnd
variable {c : Bool} {l l' r : List Token}

theorem symm (h : NlEnd c l l') : NlEnd (!c) l' l := by
  obtain ⟨x, h0, h1, h2⟩ := h; exact ⟨x, h0, h2, by simpa using h1⟩

theorem len (h : NlEnd c l l') : c.toNat ≤ l.length := by
  obtain ⟨x, h0, rfl, h2⟩ := h; simp

theorem suffix {v : List Token} (h : NlEnd c (v ++ r) l') (hr : c.toNat ≤ r.length) :
    ∃ r', l' = v ++ r' ∧ NlEnd c r r' := by
  obtain ⟨x, h0, h1, rfl⟩ := h
  rcases List.append_eq_append_iff.1 h1 with ⟨y, rfl, rfl⟩ | ⟨y, rfl, h⟩
  · exact ⟨y ++ nlIf !c, by simp, y, h0.suffix, rfl, rfl⟩
  · have : y.length + r.length = c.toNat := by
      have := congrArg List.length h; simp at this; omega
    cases y with
    | nil => exact ⟨nlIf !c, by simp, [], .nil, by simpa using h.symm, rfl⟩
    | cons => simp at this; omega

theorem cons {t : Token} (h : NlEnd c (t :: r) l') (hr : c.toNat ≤ r.length) :
    ∃ r', l' = t :: r' ∧ NlEnd c r r' := by
  obtain ⟨r', h1, h2⟩ := suffix (v := [t]) (r := r) h hr
  exact ⟨r', by simpa using h1, h2⟩

theorem cons_ne {t : Token} (h : NlEnd c (t :: r) l') (ht : t ≠ .Newline) :
    ∃ r', l' = t :: r' ∧ NlEnd c r r' := by
  refine h.cons ?_
  obtain ⟨x, h0, h1, rfl⟩ := h
  cases x with
  | nil => cases c <;> simp [nlIf] at h1; exact absurd h1.1 ht
  | cons y x => simp at h1; rw [h1.2]; simp

theorem cons_ne' {t : Token} {r' : List Token} (h : NlEnd c l (t :: r')) (ht : t ≠ .Newline) :
    ∃ r, l = t :: r ∧ NlEnd c r r' := by
  obtain ⟨r, h1, h2⟩ := h.symm.cons_ne ht
  exact ⟨r, h1, by simpa using h2.symm⟩

theorem head (h : NlEnd c l l') (hl : c.toNat < l.length) : l.head? = l'.head? := by
  obtain ⟨x, h0, rfl, rfl⟩ := h; cases x <;> simp at hl ⊢

theorem heads (h : NlEnd c l l') (hl : c.toNat < l.length) {P : Token → Prop} (hp : ∀ t r, l = t :: r → P t) :
    ∀ t r, l' = t :: r → P t := by
  rintro t r rfl
  have := h.head hl
  cases l with
  | nil => simp at this
  | cons y l => simp at this; subst this; exact hp _ _ rfl

theorem heads_nl (h : NlEnd c l l') {P : Token → Prop} (hn : P .Newline) (hp : ∀ t r, l = t :: r → P t) :
    ∀ t r, l' = t :: r → P t := by
  rintro t r rfl
  by_cases ht : t = .Newline
  · exact ht ▸ hn
  · obtain ⟨r2, rfl, -⟩ := h.cons_ne' ht
    exact hp _ _ rfl

theorem ne (h : NlEnd c l l') {t : Token} (hp : ∀ r, l ≠ t :: r) (ht : t ≠ .Newline := by simp) : ∀ r, l' ≠ t :: r := by
  rintro r rfl
  obtain ⟨r1, rfl, -⟩ := h.cons_ne' ht
  exact hp _ rfl

theorem nonempty' (h : NlEnd c l l') (hl : c.toNat < l.length) : l' ≠ [] := by
  obtain ⟨x, h0, rfl, rfl⟩ := h; cases x <;> simp at hl ⊢

/-- Two tokens ahead. -/
theorem ne2 (h : NlEnd c l l') {t s : Token} (ht : t ≠ .Newline) (hs : s ≠ .Newline) (hp : ∀ r, l ≠ t :: s :: r) :
    ∀ r, l' ≠ t :: s :: r := by
  rintro r rfl
  obtain ⟨r1, rfl, h2⟩ := h.cons_ne' ht
  exact h2.ne (t := s) (fun r2 e => hp r2 (by rw [e])) hs r rfl

theorem last (h : NlEnd c [.Backslash] l') : False := by
  obtain ⟨x, h0, h1, -⟩ := h
  cases c with
  | false => simp [nlIf] at h1; exact h0.last (by simp [← h1])
  | true =>
    rcases x with _ | ⟨y, x⟩ <;> simp [nlIf] at h1

theorem escaped' (h : NlEnd c l (.Backslash :: .Newline :: r)) : ∃ r', l = .Backslash :: .Newline :: r' := by
  obtain ⟨r1, rfl, h2⟩ := h.cons_ne' (by simp)
  rcases r1 with _ | ⟨t, r1⟩
  · exact h.last.elim
  · by_cases ht : t = .Newline
    · exact ⟨r1, by rw [ht]⟩
    · obtain ⟨r2, h3, -⟩ := h2.cons_ne ht
      cases h3; exact absurd rfl ht

theorem noBlank (h : NlEnd c l l') (hn : NoBlank l) : NoBlank l' := by
  refine ⟨fun w => h.ne fun r => hn.1 w r, fun r e => ?_⟩
  subst e
  obtain ⟨r', h1⟩ := h.escaped'
  exact hn.2 _ h1

theorem endsWord (h : NlEnd c l l') (he : EndsWord l) : EndsWord l' := h.heads_nl rfl he

theorem noLineStart (h : NlEnd c l l') (hl : c.toNat < l.length) (hn : NoLineStart l) : NoLineStart l' := by
  have := h.heads hl (P := fun x => x ≠ .Newline ∧ x ≠ .Pound)
    (by rintro t r rfl; exact ⟨by rintro rfl; exact (hn _).1 rfl, by rintro rfl; exact (hn _).2 rfl⟩)
  exact fun r => ⟨fun e => (this _ _ e).1 rfl, fun e => (this _ _ e).2 rfl⟩

theorem skip (h : NlEnd c l l') (hs : Skip l r) (hr : c.toNat ≤ r.length) :
    ∃ r', NlEnd c r r' ∧ Skip l' r' := by
  obtain ⟨bs, rfl, hb, hn⟩ := hs
  obtain ⟨r', rfl, h2⟩ := h.suffix hr
  exact ⟨r', h2, bs, rfl, hb, h2.noBlank hn⟩

theorem here {t : Token} (h : NlEnd c (t :: r) l') : ¬ (t = .DLess ∨ t = .DLessDash) := by
  obtain ⟨x, h0, h1, rfl⟩ := h
  cases x with
  | nil => cases c <;> simp [nlIf] at h1; rw [h1.1]; simp
  | cons y x => simp at h1; rw [h1.1]; have := h0.noHere rfl y (by simp); simp [this]

theorem skip_cons {t : Token} (h : NlEnd c l l') (hs : Skip l (t :: r)) (hr : c.toNat ≤ r.length) :
    ∃ r', NlEnd c r r' ∧ Skip l' (t :: r') := by
  obtain ⟨r', h2, h3⟩ := h.skip hs (by simp; omega)
  obtain ⟨r2, rfl, h4⟩ := h2.cons hr
  exact ⟨r2, h4, h3⟩

theorem line {n : Nl} (h : NlEnd c l l') (hl : Line l n r) (hr : c.toNat < r.length) :
    ∃ r', NlEnd c r r' ∧ Line l' n r' := by
  cases hl with
  | @newline bs _ hb =>
    obtain ⟨r', rfl, h2⟩ := suffix (v := bs ++ [.Newline]) (r := r) (by simpa using h) (by omega)
    exact ⟨r', h2, by simpa using Line.newline (r := r') hb⟩
  | @comment bs cs _ hb hc =>
    obtain ⟨r', rfl, h2⟩ := suffix (v := bs ++ .Pound :: cs ++ [.Newline]) (r := r) (by simpa using h) (by omega)
    exact ⟨r', h2, by simpa using Line.comment (r := r') hb hc⟩
  | lastComment => simp at hr

theorem optLine {n : Option Nl} (h : NlEnd c l l') (hl : OptLine l n r) (hr : c.toNat < r.length) :
    ∃ r', NlEnd c r r' ∧ OptLine l' n r' := by
  cases hl with
  | some hl => obtain ⟨r', h1, h2⟩ := h.line hl hr; exact ⟨r', h1, .some h2⟩
  | none hs hn => obtain ⟨r', h1, h2⟩ := h.skip hs (by omega); exact ⟨r', h1, .none h2 (h1.noLineStart hr hn)⟩

theorem lines {n : List Nl} (h : NlEnd c l l') (hl : Lines l n r) (hr : c.toNat < r.length) :
    ∃ r', NlEnd c r r' ∧ Lines l' n r' := by
  induction hl generalizing l' with
  | nil hs hn => obtain ⟨r', h1, h2⟩ := h.skip hs (by omega); exact ⟨r', h1, .nil h2 (h1.noLineStart hr hn)⟩
  | cons h1 h2 ih =>
    have := h2.le
    obtain ⟨l1, h3, h4⟩ := h.line h1 (by omega)
    obtain ⟨r', h5, h6⟩ := ih h3 hr
    exact ⟨r', h5, .cons h4 h6⟩

theorem keyword {w : Str} (h : NlEnd c l l') (hk : Keyword w l r) :
    ∃ r', NlEnd c r r' ∧ Keyword w l' r' := by
  obtain ⟨h1, h2⟩ := hk
  rcases h1 with rfl | rfl
  · obtain ⟨r', rfl, h3⟩ := h.cons_ne (by simp)
    exact ⟨r', h3, .inl rfl, h3.endsWord h2⟩
  · obtain ⟨r', rfl, h3⟩ := h.cons_ne (by simp)
    exact ⟨r', h3, .inr rfl, h3.endsWord h2⟩

theorem noKeyword {w : Str} (h : NlEnd c l l') (hk : ∀ r, ¬ Keyword w l r) : ∀ r, ¬ Keyword w l' r := by
  intro r hr
  obtain ⟨r', _, h2⟩ := h.symm.keyword hr
  exact hk _ h2

theorem kw {w : Str} (h : NlEnd c l l') (hk : Kw w l r) (hr : c.toNat ≤ r.length) :
    ∃ r', NlEnd c r r' ∧ Kw w l' r' := by
  obtain ⟨l1, h1, h2⟩ := hk
  have := h2.lt
  obtain ⟨l1', h3, h4⟩ := h.skip h1 (by omega)
  obtain ⟨r', h5, h6⟩ := h3.keyword h2
  exact ⟨r', h5, l1', h4, h6⟩

theorem atDelim {cfg : Delims} (hc : Delims.Proper cfg) (h : NlEnd c l l') (hd : AtDelim cfg l) :
    AtDelim cfg l' := by
  rcases hd with ⟨t, ht, r, rfl⟩ | ⟨w, hw, r, hr⟩ | ⟨t, ht, r, rfl, hr⟩
  · obtain ⟨r', rfl, h3⟩ := h.cons_ne (hc t (by simp [ht])).2.2.1
    exact .inl ⟨t, ht, r', rfl⟩
  · obtain ⟨r', _, h2⟩ := h.keyword hr
    exact .inr (.inl ⟨w, hw, r', h2⟩)
  · obtain ⟨r', rfl, h3⟩ := h.cons_ne (hc t (by simp [ht])).2.2.1
    exact .inr (.inr ⟨t, ht, r', rfl, h3.endsWord hr⟩)

theorem compoundStart {k : CompoundKw} (h : NlEnd c l l') (hk : CompoundStart l k) :
    CompoundStart l' k := by
  cases hk with
  | subshell => obtain ⟨r', rfl, h3⟩ := h.cons_ne (by simp); exact .subshell
  | brace he => obtain ⟨r', rfl, h3⟩ := h.cons_ne (by simp); exact .brace (h3.endsWord he)
  | forKw hk => obtain ⟨r', _, h2⟩ := h.keyword hk; exact .forKw h2
  | caseKw hk => obtain ⟨r', _, h2⟩ := h.keyword hk; exact .caseKw h2
  | ifKw hk => obtain ⟨r', _, h2⟩ := h.keyword hk; exact .ifKw h2
  | whileKw hk => obtain ⟨r', _, h2⟩ := h.keyword hk; exact .whileKw h2
  | untilKw hk => obtain ⟨r', _, h2⟩ := h.keyword hk; exact .untilKw h2

theorem functionStart (h : NlEnd c l l') (hk : FunctionStart l) : FunctionStart l' := by
  cases hk with
  | keyword hk => obtain ⟨r', _, h2⟩ := h.keyword hk; exact .keyword h2
  | paren =>
    obtain ⟨r', rfl, h3⟩ := h.cons_ne (by simp)
    obtain ⟨r', rfl, h3⟩ := h3.cons_ne (by simp)
    exact .paren
  | wsParen =>
    obtain ⟨r1, rfl, h3⟩ := h.cons_ne (by simp)
    obtain ⟨r2, rfl, h4⟩ := h3.cons_ne (by simp)
    obtain ⟨r3, rfl, h5⟩ := h4.cons_ne (by simp)
    exact .wsParen

theorem assignStart (h : NlEnd c l l') (hk : AssignStart l) : AssignStart l' := by
  obtain ⟨x, r, rfl⟩ := hk
  obtain ⟨r', rfl, h3⟩ := h.cons_ne (by simp)
  obtain ⟨r', rfl, h3⟩ := h3.cons_ne (by simp)
  exact ⟨x, r', rfl⟩

theorem parens (h : NlEnd c l l') (hp : Parens l r) (hr : c.toNat ≤ r.length) :
    ∃ r', NlEnd c r r' ∧ Parens l' r' := by
  obtain ⟨l1, rfl, hs⟩ := hp
  obtain ⟨l2, rfl, h3⟩ := h.cons_ne (by simp)
  obtain ⟨r', h4, h5⟩ := h3.skip_cons hs hr
  exact ⟨r', h4, l2, rfl, h5⟩

theorem noSep (h : NlEnd c l l') (hn : ∀ r, l ≠ .Semi :: r ∧ l ≠ .Amp :: r) : ∀ r, l' ≠ .Semi :: r ∧ l' ≠ .Amp :: r :=
  fun r => ⟨h.ne (fun r => (hn r).1) (by simp) r, h.ne (fun r => (hn r).2) (by simp) r⟩

theorem sepAfter {k : SeparatorKind} {n : Option Nl} (h : NlEnd c l l') (hp : SepAfter l k n r)
    (hr : c.toNat < r.length) : ∃ r', NlEnd c r r' ∧ SepAfter l' k n r' := by
  cases hp with
  | semi h1 =>
    obtain ⟨l1, rfl, h2⟩ := h.cons_ne (by simp)
    obtain ⟨r', h3, h4⟩ := h2.optLine h1 hr
    exact ⟨r', h3, .semi h4⟩
  | amp h1 =>
    obtain ⟨l1, rfl, h2⟩ := h.cons_ne (by simp)
    obtain ⟨r', h3, h4⟩ := h2.optLine h1 hr
    exact ⟨r', h3, .amp h4⟩
  | newline h1 h2 =>
    obtain ⟨r', h3, h4⟩ := h.line h1 hr
    exact ⟨r', h3, .newline h4 (h.noSep h2)⟩
  | other h1 h2 h3 =>
    obtain ⟨r', h4, h5⟩ := h.skip h1 (by omega)
    exact ⟨r', h4, .other h5 (h4.noLineStart hr h2) (h.noSep h3)⟩

end NlEnd
end Conch.Gram
