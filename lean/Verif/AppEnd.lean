import Verif.OpJoin
/-!
# More words after a blank: the lexical part

`BlEnd w Y l l'`: `l` ends with a blank and a newline, and `l'` has the tokens `Y` in the place of that newline. Before
it there is no here-document, and no backslash at the end.
-/
namespace Conch.Gram
open Conch

/-- The newline after a blank at the end is replaced by something else. -/
def BlEnd (w : Str) (Y l l' : List Token) : Prop :=
  ∃ x, Plain none x ∧ l = x ++ [.Whitespace w, .Newline] ∧ l' = x ++ .Whitespace w :: Y

namespace BlEnd
variable {w0 : Str} {Y l l' r : List Token}

theorem len (h : BlEnd w0 Y l l') : 2 ≤ l.length := by
  obtain ⟨x, h0, rfl, h2⟩ := h; simp

theorem suffix {v : List Token} (h : BlEnd w0 Y (v ++ r) l') (hr : 2 ≤ r.length) :
    ∃ r', l' = v ++ r' ∧ BlEnd w0 Y r r' := by
  obtain ⟨x, h0, h1, rfl⟩ := h
  rcases List.append_eq_append_iff.1 h1 with ⟨y, rfl, rfl⟩ | ⟨y, rfl, h⟩
  · exact ⟨y ++ .Whitespace w0 :: Y, by simp, y, h0.suffix, rfl, rfl⟩
  · have : y.length + r.length = 2 := by
      have := congrArg List.length h; simp at this; omega
    cases y with
    | nil => exact ⟨.Whitespace w0 :: Y, by simp, [], .nil, by simpa using h.symm, rfl⟩
    | cons => simp at this; omega

theorem cons {t : Token} (h : BlEnd w0 Y (t :: r) l') (hr : 2 ≤ r.length) :
    ∃ r', l' = t :: r' ∧ BlEnd w0 Y r r' := by
  obtain ⟨r', h1, h2⟩ := suffix (v := [t]) (r := r) h hr
  exact ⟨r', by simpa using h1, h2⟩

theorem cons_ne {t : Token} (h : BlEnd w0 Y (t :: r) l') (ht : ∀ w, t ≠ .Whitespace w) :
    ∃ r', l' = t :: r' ∧ BlEnd w0 Y r r' := by
  refine h.cons ?_
  obtain ⟨x, h0, h1, rfl⟩ := h
  cases x with
  | nil => simp at h1; exact absurd h1.1 (ht _)
  | cons y x => simp at h1; rw [h1.2]; simp

theorem cons_ne' {t : Token} {r' : List Token} (h : BlEnd w0 Y l (t :: r')) (ht : ∀ w, t ≠ .Whitespace w) :
    ∃ r, l = t :: r ∧ BlEnd w0 Y r r' := by
  obtain ⟨x, h0, h1, h2⟩ := h
  cases x with
  | nil => simp at h2; exact absurd h2.1 (ht _)
  | cons y x =>
    simp at h2
    obtain ⟨rfl, rfl⟩ := h2
    subst h1
    exact ⟨x ++ [.Whitespace w0, .Newline], rfl, x, Plain.suffix (v := [t]) (by simpa using h0), rfl, rfl⟩

theorem head (h : BlEnd w0 Y l l') : l.head? = l'.head? := by
  obtain ⟨x, h0, rfl, rfl⟩ := h; cases x <;> simp

theorem heads (h : BlEnd w0 Y l l') {P : Token → Prop} (hp : ∀ t r, l = t :: r → P t) :
    ∀ t r, l' = t :: r → P t := by
  rintro t r rfl
  have := h.head
  cases l with
  | nil => simp at this
  | cons y l => simp at this; subst this; exact hp _ _ rfl

theorem heads' (h : BlEnd w0 Y l l') {P : Token → Prop} (hp : ∀ t r, l' = t :: r → P t) :
    ∀ t r, l = t :: r → P t := by
  rintro t r rfl
  have := h.head
  cases l' with
  | nil => simp at this
  | cons y l => simp at this; subst this; exact hp _ _ rfl

theorem ne (h : BlEnd w0 Y l l') {t : Token} (hp : ∀ r, l ≠ t :: r) : ∀ r, l' ≠ t :: r := by
  have := h.heads (P := fun x => x ≠ t) (by rintro x r rfl rfl; exact hp _ rfl)
  rintro r rfl
  exact this _ _ rfl rfl

theorem nonempty' (h : BlEnd w0 Y l l') : l' ≠ [] := by
  obtain ⟨x, h0, rfl, rfl⟩ := h; simp

/-- Two tokens ahead. -/
theorem ne2 (h : BlEnd w0 Y l l') {t s : Token} (ht : ∀ w, t ≠ .Whitespace w) (hp : ∀ r, l ≠ t :: s :: r) :
    ∀ r, l' ≠ t :: s :: r := by
  rintro r rfl
  obtain ⟨r1, rfl, h2⟩ := h.cons_ne' ht
  exact h2.ne (t := s) (fun r2 e => hp r2 (by rw [e])) r rfl

theorem last (h : BlEnd w0 Y [.Backslash] l') : False := by
  have := h.len; simp at this

theorem noBlank (h : BlEnd w0 Y l l') (hn : NoBlank l) : NoBlank l' := by
  refine ⟨fun w => h.ne (fun r => hn.1 w r), h.ne2 (by simp) hn.2⟩

theorem endsWord (h : BlEnd w0 Y l l') (he : EndsWord l) : EndsWord l' := h.heads he

theorem endsWord' (h : BlEnd w0 Y l l') (he : EndsWord l') : EndsWord l := h.heads' he

theorem noLineStart (h : BlEnd w0 Y l l') (hn : NoLineStart l) : NoLineStart l' :=
  fun r => ⟨h.ne (fun r => (hn r).1) r, h.ne (fun r => (hn r).2) r⟩

theorem skip (h : BlEnd w0 Y l l') (hs : Skip l r) (hr : 2 ≤ r.length) :
    ∃ r', BlEnd w0 Y r r' ∧ Skip l' r' := by
  obtain ⟨bs, rfl, hb, hn⟩ := hs
  obtain ⟨r', rfl, h2⟩ := h.suffix hr
  exact ⟨r', h2, bs, rfl, hb, h2.noBlank hn⟩

theorem here {t : Token} (h : BlEnd w0 Y (t :: r) l') : ¬ (t = .DLess ∨ t = .DLessDash) := by
  obtain ⟨x, h0, h1, rfl⟩ := h
  cases x with
  | nil => simp at h1; rw [h1.1]; simp
  | cons y x => simp at h1; rw [h1.1]; have := h0.noHere rfl y (by simp); simp [this]

theorem skip_cons {t : Token} (h : BlEnd w0 Y l l') (hs : Skip l (t :: r)) (hr : 2 ≤ r.length) :
    ∃ r', BlEnd w0 Y r r' ∧ Skip l' (t :: r') := by
  obtain ⟨r', h2, h3⟩ := h.skip hs (by simp; omega)
  obtain ⟨r2, rfl, h4⟩ := h2.cons hr
  exact ⟨r2, h4, h3⟩

theorem line {n : Nl} (h : BlEnd w0 Y l l') (hl : Line l n r) (hr : 2 ≤ r.length) :
    ∃ r', BlEnd w0 Y r r' ∧ Line l' n r' := by
  cases hl with
  | @newline bs _ hb =>
    obtain ⟨r', rfl, h2⟩ := suffix (v := bs ++ [.Newline]) (r := r) (by simpa using h) (by omega)
    exact ⟨r', h2, by simpa using Line.newline (r := r') hb⟩
  | @comment bs cs _ hb hc =>
    obtain ⟨r', rfl, h2⟩ := suffix (v := bs ++ .Pound :: cs ++ [.Newline]) (r := r) (by simpa using h) (by omega)
    exact ⟨r', h2, by simpa using Line.comment (r := r') hb hc⟩
  | lastComment => simp at hr

theorem optLine {n : Option Nl} (h : BlEnd w0 Y l l') (hl : OptLine l n r) (hr : 2 ≤ r.length) :
    ∃ r', BlEnd w0 Y r r' ∧ OptLine l' n r' := by
  cases hl with
  | some hl => obtain ⟨r', h1, h2⟩ := h.line hl hr; exact ⟨r', h1, .some h2⟩
  | none hs hn => obtain ⟨r', h1, h2⟩ := h.skip hs (by omega); exact ⟨r', h1, .none h2 (h1.noLineStart hn)⟩

theorem lines {n : List Nl} (h : BlEnd w0 Y l l') (hl : Lines l n r) (hr : 2 ≤ r.length) :
    ∃ r', BlEnd w0 Y r r' ∧ Lines l' n r' := by
  induction hl generalizing l' with
  | nil hs hn => obtain ⟨r', h1, h2⟩ := h.skip hs (by omega); exact ⟨r', h1, .nil h2 (h1.noLineStart hn)⟩
  | cons h1 h2 ih =>
    have := h2.le
    obtain ⟨l1, h3, h4⟩ := h.line h1 (by omega)
    obtain ⟨r', h5, h6⟩ := ih h3 hr
    exact ⟨r', h5, .cons h4 h6⟩

theorem keyword {w : Str} (h : BlEnd w0 Y l l') (hk : Keyword w l r) :
    ∃ r', BlEnd w0 Y r r' ∧ Keyword w l' r' := by
  obtain ⟨h1, h2⟩ := hk
  rcases h1 with rfl | rfl
  · obtain ⟨r', rfl, h3⟩ := h.cons_ne (by simp)
    exact ⟨r', h3, .inl rfl, h3.endsWord h2⟩
  · obtain ⟨r', rfl, h3⟩ := h.cons_ne (by simp)
    exact ⟨r', h3, .inr rfl, h3.endsWord h2⟩

theorem keyword' {w : Str} {r' : List Token} (h : BlEnd w0 Y l l') (hk : Keyword w l' r') : ∃ r, Keyword w l r := by
  obtain ⟨h1, h2⟩ := hk
  rcases h1 with rfl | rfl
  · obtain ⟨r, rfl, h3⟩ := h.cons_ne' (by simp)
    exact ⟨r, .inl rfl, h3.endsWord' h2⟩
  · obtain ⟨r, rfl, h3⟩ := h.cons_ne' (by simp)
    exact ⟨r, .inr rfl, h3.endsWord' h2⟩

theorem noKeyword {w : Str} (h : BlEnd w0 Y l l') (hk : ∀ r, ¬ Keyword w l r) : ∀ r, ¬ Keyword w l' r := by
  intro r hr
  obtain ⟨r', h2⟩ := h.keyword' hr
  exact hk _ h2

theorem kw {w : Str} (h : BlEnd w0 Y l l') (hk : Kw w l r) (hr : 2 ≤ r.length) :
    ∃ r', BlEnd w0 Y r r' ∧ Kw w l' r' := by
  obtain ⟨l1, h1, h2⟩ := hk
  have := h2.lt
  obtain ⟨l1', h3, h4⟩ := h.skip h1 (by omega)
  obtain ⟨r', h5, h6⟩ := h3.keyword h2
  exact ⟨r', h5, l1', h4, h6⟩

theorem atDelim {cfg : Delims} (hc : Delims.Proper cfg) (h : BlEnd w0 Y l l') (hd : AtDelim cfg l) :
    AtDelim cfg l' := by
  rcases hd with ⟨t, ht, r, rfl⟩ | ⟨w, hw, r, hr⟩ | ⟨t, ht, r, rfl, hr⟩
  · obtain ⟨r', rfl, h3⟩ := h.cons_ne (hc t (by simp [ht])).1
    exact .inl ⟨t, ht, r', rfl⟩
  · obtain ⟨r', _, h2⟩ := h.keyword hr
    exact .inr (.inl ⟨w, hw, r', h2⟩)
  · obtain ⟨r', rfl, h3⟩ := h.cons_ne (hc t (by simp [ht])).1
    exact .inr (.inr ⟨t, ht, r', rfl, h3.endsWord hr⟩)

theorem compoundStart {kw : CompoundKw} (h : BlEnd w0 Y l l') (hk : CompoundStart l kw) :
    CompoundStart l' kw := by
  cases hk with
  | subshell => obtain ⟨r', rfl, h3⟩ := h.cons_ne (by simp); exact .subshell
  | brace he => obtain ⟨r', rfl, h3⟩ := h.cons_ne (by simp); exact .brace (h3.endsWord he)
  | forKw hk => obtain ⟨r', _, h2⟩ := h.keyword hk; exact .forKw h2
  | caseKw hk => obtain ⟨r', _, h2⟩ := h.keyword hk; exact .caseKw h2
  | ifKw hk => obtain ⟨r', _, h2⟩ := h.keyword hk; exact .ifKw h2
  | whileKw hk => obtain ⟨r', _, h2⟩ := h.keyword hk; exact .whileKw h2
  | untilKw hk => obtain ⟨r', _, h2⟩ := h.keyword hk; exact .untilKw h2

theorem functionStart (h : BlEnd w0 Y l l') (hk : FunctionStart l) : FunctionStart l' := by
  cases hk with
  | keyword hk => obtain ⟨r', _, h2⟩ := h.keyword hk; exact .keyword h2
  | paren =>
    obtain ⟨r', rfl, h3⟩ := h.cons_ne (by simp)
    obtain ⟨r', rfl, h3⟩ := h3.cons_ne (by simp)
    exact .paren
  | wsParen =>
    obtain ⟨x, h0, h1, rfl⟩ := h
    rcases x with _ | ⟨a, _ | ⟨b, _ | ⟨c, x⟩⟩⟩ <;> simp at h1
    obtain ⟨rfl, rfl, rfl, -⟩ := h1
    exact .wsParen

theorem assignStart (h : BlEnd w0 Y l l') (hk : AssignStart l) : AssignStart l' := by
  obtain ⟨x, r, rfl⟩ := hk
  obtain ⟨r', rfl, h3⟩ := h.cons_ne (by simp)
  obtain ⟨r', rfl, h3⟩ := h3.cons_ne (by simp)
  exact ⟨x, r', rfl⟩

theorem parens (h : BlEnd w0 Y l l') (hp : Parens l r) (hr : 2 ≤ r.length) :
    ∃ r', BlEnd w0 Y r r' ∧ Parens l' r' := by
  obtain ⟨l1, rfl, hs⟩ := hp
  obtain ⟨l2, rfl, h3⟩ := h.cons_ne (by simp)
  obtain ⟨r', h4, h5⟩ := h3.skip_cons hs hr
  exact ⟨r', h4, l2, rfl, h5⟩

theorem atDelim' {cfg : Delims} (hc : Delims.Proper cfg) (h : BlEnd w0 Y l l') (hd : AtDelim cfg l') :
    AtDelim cfg l := by
  have tok : ∀ {t r}, t ∈ cfg.exactTokens ++ cfg.reservedTokens → l' = t :: r → ∃ r1, l = t :: r1 ∧ BlEnd w0 Y r1 r := by
    rintro t r ht rfl
    have := h.head
    cases l with
    | nil => simp at this
    | cons y l =>
      simp at this
      subst this
      obtain ⟨r', h1, h2⟩ := h.cons_ne (hc _ ht).1
      cases h1
      exact ⟨l, rfl, h2⟩
  rcases hd with ⟨t, ht, r, rfl⟩ | ⟨w, hw, r, hr⟩ | ⟨t, ht, r, rfl, hr⟩
  · obtain ⟨r', rfl, h3⟩ := tok (by simp [ht]) rfl
    exact .inl ⟨t, ht, r', rfl⟩
  · obtain ⟨r', h2⟩ := h.keyword' hr
    exact .inr (.inl ⟨w, hw, r', h2⟩)
  · obtain ⟨r', rfl, h3⟩ := tok (by simp [ht]) rfl
    exact .inr (.inr ⟨t, ht, r', rfl, h3.endsWord' hr⟩)

theorem compoundStart' {kw : CompoundKw} (h : BlEnd w0 Y l l') (hk : CompoundStart l' kw) : CompoundStart l kw := by
  cases hk with
  | subshell => obtain ⟨r', rfl, h3⟩ := h.cons_ne' (by simp); exact .subshell
  | brace he => obtain ⟨r', rfl, h3⟩ := h.cons_ne' (by simp); exact .brace (h3.endsWord' he)
  | forKw hk => obtain ⟨r', h2⟩ := h.keyword' hk; exact .forKw h2
  | caseKw hk => obtain ⟨r', h2⟩ := h.keyword' hk; exact .caseKw h2
  | ifKw hk => obtain ⟨r', h2⟩ := h.keyword' hk; exact .ifKw h2
  | whileKw hk => obtain ⟨r', h2⟩ := h.keyword' hk; exact .whileKw h2
  | untilKw hk => obtain ⟨r', h2⟩ := h.keyword' hk; exact .untilKw h2

theorem functionStart' (h : BlEnd w0 Y l l') (hl : 4 ≤ l.length) (hk : FunctionStart l') : FunctionStart l := by
  cases hk with
  | keyword hk => obtain ⟨r', h2⟩ := h.keyword' hk; exact .keyword h2
  | paren =>
    obtain ⟨r', rfl, h3⟩ := h.cons_ne' (by simp)
    obtain ⟨r', rfl, h3⟩ := h3.cons_ne' (by simp)
    exact .paren
  | wsParen =>
    obtain ⟨x, h0, rfl, h1⟩ := h
    rcases x with _ | ⟨a, _ | ⟨b, _ | ⟨c, x⟩⟩⟩ <;> simp at h1 hl
    obtain ⟨rfl, rfl, rfl, -⟩ := h1
    exact .wsParen

theorem assignStart' (h : BlEnd w0 Y l l') (hk : AssignStart l') : AssignStart l := by
  obtain ⟨x, r, rfl⟩ := hk
  obtain ⟨r', rfl, h3⟩ := h.cons_ne' (by simp)
  obtain ⟨r', rfl, h3⟩ := h3.cons_ne' (by simp)
  exact ⟨x, r', rfl⟩

theorem noSep (h : BlEnd w0 Y l l') (hn : ∀ r, l ≠ .Semi :: r ∧ l ≠ .Amp :: r) : ∀ r, l' ≠ .Semi :: r ∧ l' ≠ .Amp :: r :=
  fun r => ⟨h.ne (fun r => (hn r).1) r, h.ne (fun r => (hn r).2) r⟩

theorem sepAfter {sk : SeparatorKind} {n : Option Nl} (h : BlEnd w0 Y l l') (hp : SepAfter l sk n r)
    (hr : 2 ≤ r.length) : ∃ r', BlEnd w0 Y r r' ∧ SepAfter l' sk n r' := by
  cases hp with
  | semi h1 =>
    obtain ⟨l1, rfl, h2⟩ := h.cons_ne (by simp)
    obtain ⟨r', h3, h4⟩ := h2.optLine h1 hr
    exact ⟨r', h3, .semi h4⟩
  | amp h1 =>
    obtain ⟨l1, rfl, h2⟩ := h.cons_ne (by simp)
    obtain ⟨r', h3, h4⟩ := h2.optLine h1 hr
    exact ⟨r', h3, .amp h4⟩
  | newline h1 h2 =>
    obtain ⟨r', h3, h4⟩ := h.line h1 hr
    exact ⟨r', h3, .newline h4 (h.noSep h2)⟩
  | other h1 h2 h3 =>
    obtain ⟨r', h4, h5⟩ := h.skip h1 (by omega)
    exact ⟨r', h4, .other h5 (h4.noLineStart h2) (h.noSep h3)⟩

end BlEnd
end Conch.Gram
