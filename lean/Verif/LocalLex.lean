import Verif.LocalLive
/-!
# Replacing what follows a newline: the lexical part

`Ends z t1 t2 l l'`: `l` and `l'` are the same tokens up to a newline (no backslash before it), which
is followed by `t1` in `l` and by `t2` in `l'`. With `z = none` there is no here-document among the
tokens before the newline. With `z = some k`, where `t1` will be just the probe `k`, there may be: if the
probe is still there after reading, no here-document took it.
-/
namespace Conch.Gram
open Conch

/-- No here-document operator. -/
def NoHere (x : List Token) : Prop := ∀ t ∈ x, t ≠ .DLess ∧ t ≠ .DLessDash

/-- Tokens before a newline that matters, not ending with a backslash. Without a probe `z`: no
here-document. With the probe: it is not among them, and no line ends with two backslashes. -/
structure Plain (z : Option Token) (x : List Token) : Prop where
  noHere : z = none → NoHere x
  last : x.getLast? ≠ some .Backslash
  fresh : ∀ k, z = some k → k ∉ x
  lines : ∀ k, z = some k → ¬ [.Backslash, .Backslash, .Newline] <:+: x

theorem Plain.suffix {z : Option Token} {v x : List Token} (h : Plain z (v ++ x)) : Plain z x := by
  refine ⟨fun hz t ht => h.noHere hz t (by simp [ht]), fun hx => h.last ?_, fun k hk hm => h.fresh k hk (by simp [hm]),
    fun k hk hi => h.lines k hk (hi.trans (List.suffix_append v x).isInfix)⟩
  rw [List.getLast?_append, hx]; rfl

theorem Plain.nil {z : Option Token} : Plain z [] := ⟨by simp [NoHere], by simp, by simp, by simp⟩

/-- The same up to a newline. -/
def Ends (z : Option Token) (t1 t2 l l' : List Token) : Prop :=
  ∃ x, Plain z x ∧ l = x ++ .Newline :: t1 ∧ l' = x ++ .Newline :: t2

namespace Ends
variable {z : Option Token} {t1 t2 l l' r : List Token}

theorem symm (h : Ends z t1 t2 l l') : Ends z t2 t1 l' l := by
  obtain ⟨x, h0, h1, h2⟩ := h; exact ⟨x, h0, h2, h1⟩

theorem len (h : Ends z t1 t2 l l') : t1.length < l.length := by
  obtain ⟨x, h0, rfl, h2⟩ := h; simp; omega

theorem suffix {v : List Token} (h : Ends z t1 t2 (v ++ r) l') (hr : t1.length < r.length) :
    ∃ r', l' = v ++ r' ∧ Ends z t1 t2 r r' := by
  obtain ⟨x, h0, h1, rfl⟩ := h
  rcases List.append_eq_append_iff.1 h1 with ⟨y, rfl, rfl⟩ | ⟨y, rfl, h⟩
  · exact ⟨y ++ .Newline :: t2, by simp, y, h0.suffix, rfl, rfl⟩
  · have : y.length + r.length = t1.length + 1 := by
      have := congrArg List.length h; simp at this; omega
    cases y with
    | nil => exact ⟨.Newline :: t2, by simp, [], .nil, by simpa using h.symm, rfl⟩
    | cons => simp at this; omega

theorem cons {t : Token} (h : Ends z t1 t2 (t :: r) l') (hr : t1.length < r.length) :
    ∃ r', l' = t :: r' ∧ Ends z t1 t2 r r' := by
  obtain ⟨r', h1, h2⟩ := suffix (v := [t]) (r := r) h hr
  exact ⟨r', by simpa using h1, h2⟩

theorem cons_ne {t : Token} (h : Ends z t1 t2 (t :: r) l') (ht : t ≠ .Newline) :
    ∃ r', l' = t :: r' ∧ Ends z t1 t2 r r' := by
  refine h.cons ?_
  obtain ⟨x, h0, h1, rfl⟩ := h
  cases x with
  | nil => simp at h1; exact absurd h1.1 ht
  | cons y x => simp at h1; rw [h1.2]; simp; omega

theorem cons_ne' {t : Token} {r' : List Token} (h : Ends z t1 t2 l (t :: r')) (ht : t ≠ .Newline) :
    ∃ r, l = t :: r ∧ Ends z t1 t2 r r' := by
  obtain ⟨r, h1, h2⟩ := h.symm.cons_ne ht
  exact ⟨r, h1, h2.symm⟩

theorem head (h : Ends z t1 t2 l l') : l.head? = l'.head? := by
  obtain ⟨x, h0, rfl, rfl⟩ := h; cases x <;> simp

theorem heads (h : Ends z t1 t2 l l') {P : Token → Prop} (hp : ∀ t r, l = t :: r → P t) :
    ∀ t r, l' = t :: r → P t := by
  rintro t r rfl
  have := h.head
  cases l with
  | nil => simp at this
  | cons y l => simp at this; subst this; exact hp _ _ rfl

theorem heads_iff (h : Ends z t1 t2 l l') {P : Token → Prop} :
    (∀ t r, l = t :: r → P t) ↔ ∀ t r, l' = t :: r → P t := ⟨h.heads, h.symm.heads⟩

theorem ne (h : Ends z t1 t2 l l') {t : Token} (hp : ∀ r, l ≠ t :: r) : ∀ r, l' ≠ t :: r := by
  have := h.heads (P := fun x => x ≠ t) (by rintro x r rfl rfl; exact hp _ rfl)
  rintro r rfl
  exact this _ _ rfl rfl

theorem nonempty' (h : Ends z t1 t2 l l') : l' ≠ [] := by
  obtain ⟨x, h0, rfl, rfl⟩ := h; simp

theorem nonempty (h : Ends z t1 t2 l l') : l ≠ [] := h.symm.nonempty'

/-- Two tokens ahead. -/
theorem ne2 (h : Ends z t1 t2 l l') {t s : Token} (ht : t ≠ .Newline) (hp : ∀ r, l ≠ t :: s :: r) :
    ∀ r, l' ≠ t :: s :: r := by
  rintro r rfl
  obtain ⟨r1, rfl, h2⟩ := h.cons_ne' ht
  exact h2.ne (t := s) (fun r2 e => hp r2 (by rw [e])) r rfl

theorem noBlank (h : Ends z t1 t2 l l') (hn : NoBlank l) : NoBlank l' := by
  refine ⟨fun w => h.ne fun r => hn.1 w r, h.ne2 (by simp) hn.2⟩

theorem endsWord (h : Ends z t1 t2 l l') : EndsWord l ↔ EndsWord l' := h.heads_iff

theorem noLineStart (h : Ends z t1 t2 l l') (hn : NoLineStart l) : NoLineStart l' :=
  fun r => ⟨h.ne (fun r => (hn r).1) r, h.ne (fun r => (hn r).2) r⟩

theorem skip (h : Ends z t1 t2 l l') (hs : Skip l r) (hr : t1.length < r.length) :
    ∃ r', Ends z t1 t2 r r' ∧ Skip l' r' := by
  obtain ⟨bs, rfl, hb, hn⟩ := hs
  obtain ⟨r', rfl, h2⟩ := h.suffix hr
  exact ⟨r', h2, bs, rfl, hb, h2.noBlank hn⟩

theorem here {t : Token} (h : Ends none t1 t2 (t :: r) l') : ¬ (t = .DLess ∨ t = .DLessDash) := by
  obtain ⟨x, h0, h1, rfl⟩ := h
  cases x with
  | nil => simp at h1; rw [h1.1]; simp
  | cons y x => simp at h1; rw [h1.1]; have := h0.noHere rfl y (by simp); simp [this]

theorem skip_cons {t : Token} (h : Ends z t1 t2 l l') (hs : Skip l (t :: r)) (hr : t1.length < r.length) :
    ∃ r', Ends z t1 t2 r r' ∧ Skip l' (t :: r') := by
  obtain ⟨r', h2, h3⟩ := h.skip hs (by simp; omega)
  obtain ⟨r2, rfl, h4⟩ := h2.cons hr
  exact ⟨r2, h4, h3⟩

theorem skip_ne {t : Token} (h : Ends z t1 t2 l l') (hs : Skip l (t :: r)) (ht : t ≠ .Newline)
    (hr : t1.length < r.length + 1) :
    ∃ r', Ends z t1 t2 r r' ∧ Skip l' (t :: r') := by
  obtain ⟨r', h2, h3⟩ := h.skip hs (by simp; omega)
  obtain ⟨r2, rfl, h4⟩ := h2.cons_ne ht
  exact ⟨r2, h4, h3⟩

theorem line {n : Nl} (h : Ends z t1 t2 l l') (hl : Line l n r) (hr : t1.length < r.length) :
    ∃ r', Ends z t1 t2 r r' ∧ Line l' n r' := by
  cases hl with
  | @newline bs _ hb =>
    obtain ⟨r', rfl, h2⟩ := suffix (v := bs ++ [.Newline]) (r := r) (by simpa using h) hr
    exact ⟨r', h2, by simpa using Line.newline (r := r') hb⟩
  | @comment bs cs _ hb hc =>
    obtain ⟨r', rfl, h2⟩ := suffix (v := bs ++ .Pound :: cs ++ [.Newline]) (r := r) (by simpa using h) hr
    exact ⟨r', h2, by simpa using Line.comment (r := r') hb hc⟩
  | lastComment => simp at hr

theorem optLine {n : Option Nl} (h : Ends z t1 t2 l l') (hl : OptLine l n r) (hr : t1.length < r.length) :
    ∃ r', Ends z t1 t2 r r' ∧ OptLine l' n r' := by
  cases hl with
  | some hl => obtain ⟨r', h1, h2⟩ := h.line hl hr; exact ⟨r', h1, .some h2⟩
  | none hs hn => obtain ⟨r', h1, h2⟩ := h.skip hs hr; exact ⟨r', h1, .none h2 (h1.noLineStart hn)⟩

theorem lines {n : List Nl} (h : Ends z t1 t2 l l') (hl : Lines l n r) (hr : t1.length < r.length) :
    ∃ r', Ends z t1 t2 r r' ∧ Lines l' n r' := by
  induction hl generalizing l' with
  | nil hs hn => obtain ⟨r', h1, h2⟩ := h.skip hs hr; exact ⟨r', h1, .nil h2 (h1.noLineStart hn)⟩
  | cons h1 h2 ih =>
    have := h2.le
    obtain ⟨l1, h3, h4⟩ := h.line h1 (by omega)
    obtain ⟨r', h5, h6⟩ := ih h3 hr
    exact ⟨r', h5, .cons h4 h6⟩

theorem keyword {w : Str} (h : Ends z t1 t2 l l') (hk : Keyword w l r) :
    ∃ r', Ends z t1 t2 r r' ∧ Keyword w l' r' := by
  obtain ⟨h1, h2⟩ := hk
  rcases h1 with rfl | rfl
  · obtain ⟨r', rfl, h3⟩ := h.cons_ne (by simp)
    exact ⟨r', h3, .inl rfl, h3.endsWord.1 h2⟩
  · obtain ⟨r', rfl, h3⟩ := h.cons_ne (by simp)
    exact ⟨r', h3, .inr rfl, h3.endsWord.1 h2⟩

theorem noKeyword {w : Str} (h : Ends z t1 t2 l l') (hk : ∀ r, ¬ Keyword w l r) : ∀ r, ¬ Keyword w l' r := by
  intro r hr
  obtain ⟨r', _, h2⟩ := h.symm.keyword hr
  exact hk _ h2

theorem kw {w : Str} (h : Ends z t1 t2 l l') (hk : Kw w l r) (hr : t1.length < r.length) :
    ∃ r', Ends z t1 t2 r r' ∧ Kw w l' r' := by
  obtain ⟨l1, h1, h2⟩ := hk
  have := h2.lt
  obtain ⟨l1', h3, h4⟩ := h.skip h1 (by omega)
  obtain ⟨r', h5, h6⟩ := h3.keyword h2
  exact ⟨r', h5, l1', h4, h6⟩

theorem kw' {w : Str} (h : Ends z t1 t2 l l') (hk : Kw w l r) (hr : t1.length ≤ r.length) :
    ∃ r', Ends z t1 t2 r r' ∧ Kw w l' r' := by
  obtain ⟨l1, h1, h2⟩ := hk
  have := h2.lt
  obtain ⟨l1', h3, h4⟩ := h.skip h1 (by omega)
  obtain ⟨r', h5, h6⟩ := h3.keyword h2
  exact ⟨r', h5, l1', h4, h6⟩

theorem atDelim {cfg : Delims} (hc : Delims.Proper cfg) (h : Ends z t1 t2 l l') (hd : AtDelim cfg l) :
    AtDelim cfg l' := by
  rcases hd with ⟨t, ht, r, rfl⟩ | ⟨w, hw, r, hr⟩ | ⟨t, ht, r, rfl, hr⟩
  · obtain ⟨r', rfl, h3⟩ := h.cons_ne (hc t (by simp [ht])).2.2.1
    exact .inl ⟨t, ht, r', rfl⟩
  · obtain ⟨r', _, h2⟩ := h.keyword hr
    exact .inr (.inl ⟨w, hw, r', h2⟩)
  · obtain ⟨r', rfl, h3⟩ := h.cons_ne (hc t (by simp [ht])).2.2.1
    exact .inr (.inr ⟨t, ht, r', rfl, h3.endsWord.1 hr⟩)

theorem compoundStart {k : CompoundKw} (h : Ends z t1 t2 l l') (hk : CompoundStart l k) :
    CompoundStart l' k := by
  cases hk with
  | subshell => obtain ⟨r', rfl, h3⟩ := h.cons_ne (by simp); exact .subshell
  | brace he => obtain ⟨r', rfl, h3⟩ := h.cons_ne (by simp); exact .brace (h3.endsWord.1 he)
  | forKw hk => obtain ⟨r', _, h2⟩ := h.keyword hk; exact .forKw h2
  | caseKw hk => obtain ⟨r', _, h2⟩ := h.keyword hk; exact .caseKw h2
  | ifKw hk => obtain ⟨r', _, h2⟩ := h.keyword hk; exact .ifKw h2
  | whileKw hk => obtain ⟨r', _, h2⟩ := h.keyword hk; exact .whileKw h2
  | untilKw hk => obtain ⟨r', _, h2⟩ := h.keyword hk; exact .untilKw h2

theorem functionStart (h : Ends z t1 t2 l l') (hk : FunctionStart l) : FunctionStart l' := by
  cases hk with
  | keyword hk => obtain ⟨r', _, h2⟩ := h.keyword hk; exact .keyword h2
  | paren =>
    obtain ⟨r', rfl, h3⟩ := h.cons_ne (by simp)
    obtain ⟨r', rfl, h3⟩ := h3.cons_ne (by simp)
    exact .paren
  | wsParen =>
    obtain ⟨r1, rfl, h3⟩ := h.cons_ne (by simp)
    obtain ⟨r2, rfl, h4⟩ := h3.cons_ne (by simp)
    obtain ⟨r3, rfl, h5⟩ := h4.cons_ne (by simp)
    exact .wsParen

theorem assignStart (h : Ends z t1 t2 l l') (hk : AssignStart l) : AssignStart l' := by
  obtain ⟨x, r, rfl⟩ := hk
  obtain ⟨r', rfl, h3⟩ := h.cons_ne (by simp)
  obtain ⟨r', rfl, h3⟩ := h3.cons_ne (by simp)
  exact ⟨x, r', rfl⟩

theorem parens (h : Ends z t1 t2 l l') (hp : Parens l r) (hr : t1.length < r.length) :
    ∃ r', Ends z t1 t2 r r' ∧ Parens l' r' := by
  obtain ⟨l1, rfl, hs⟩ := hp
  obtain ⟨l2, rfl, h3⟩ := h.cons_ne (by simp)
  obtain ⟨r', h4, h5⟩ := h3.skip_cons hs hr
  exact ⟨r', h4, l2, rfl, h5⟩

theorem sepAfter {k : SeparatorKind} {c : Option Nl} (h : Ends z t1 t2 l l') (hp : SepAfter l k c r)
    (hr : t1.length < r.length) : ∃ r', Ends z t1 t2 r r' ∧ SepAfter l' k c r' := by
  cases hp with
  | semi h1 =>
    obtain ⟨l1, rfl, h2⟩ := h.cons_ne (by simp)
    obtain ⟨r', h3, h4⟩ := h2.optLine h1 hr
    exact ⟨r', h3, .semi h4⟩
  | amp h1 =>
    obtain ⟨l1, rfl, h2⟩ := h.cons_ne (by simp)
    obtain ⟨r', h3, h4⟩ := h2.optLine h1 hr
    exact ⟨r', h3, .amp h4⟩
  | newline h1 h2 =>
    obtain ⟨r', h3, h4⟩ := h.line h1 hr
    exact ⟨r', h3, .newline h4 fun r => ⟨h.ne (fun r => (h2 r).1) r, h.ne (fun r => (h2 r).2) r⟩⟩
  | other h1 h2 h3 =>
    obtain ⟨r', h4, h5⟩ := h.skip h1 hr
    exact ⟨r', h4, .other h5 (h4.noLineStart h2)
      fun r => ⟨h.ne (fun r => (h3 r).1) r, h.ne (fun r => (h3 r).2) r⟩⟩

end Ends
end Conch.Gram
