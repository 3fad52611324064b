import Verif.NlRead
/-!
# An operator in the place of the newline at the end: the lexical part

`OpEnd k X l l'`: `l` ends with a newline, and `l'` has an operator `k` that ends words and the tokens `X` in its place.
Before it there is no here-document, and no backslash at the end.
-/
namespace Conch.Gram
open Conch

/-- The operators after a command. -/
def IsOp (k : Token) : Prop := k ∈ [Token.Semi, .Amp, .AndIf, .OrIf, .Pipe, .ParenClose, .DSemi]

/-- The newline at the end is replaced by an operator and more. -/
def OpEnd (k : Token) (X l l' : List Token) : Prop :=
  IsOp k ∧ ∃ x, Plain none x ∧ l = x ++ [.Newline] ∧ l' = x ++ k :: X

namespace OpEnd
variable {k : Token} {X l l' r : List Token}

theorem op (h : OpEnd k X l l') : IsOp k := h.1

theorem len (h : OpEnd k X l l') : 1 ≤ l.length := by
  obtain ⟨-, x, h0, rfl, h2⟩ := h; simp

theorem suffix {v : List Token} (h : OpEnd k X (v ++ r) l') (hr : 1 ≤ r.length) :
    ∃ r', l' = v ++ r' ∧ OpEnd k X r r' := by
  obtain ⟨hk, x, h0, h1, rfl⟩ := h
  rcases List.append_eq_append_iff.1 h1 with ⟨y, rfl, rfl⟩ | ⟨y, rfl, h⟩
  · exact ⟨y ++ k :: X, by simp, hk, y, h0.suffix, rfl, rfl⟩
  · have : y.length + r.length = 1 := by
      have := congrArg List.length h; simp at this; omega
    cases y with
    | nil => exact ⟨k :: X, by simp, hk, [], .nil, by simpa using h.symm, rfl⟩
    | cons => simp at this; omega

theorem cons {t : Token} (h : OpEnd k X (t :: r) l') (hr : 1 ≤ r.length) :
    ∃ r', l' = t :: r' ∧ OpEnd k X r r' := by
  obtain ⟨r', h1, h2⟩ := suffix (v := [t]) (r := r) h hr
  exact ⟨r', by simpa using h1, h2⟩

theorem cons_ne {t : Token} (h : OpEnd k X (t :: r) l') (ht : t ≠ .Newline) :
    ∃ r', l' = t :: r' ∧ OpEnd k X r r' := by
  refine h.cons ?_
  obtain ⟨-, x, h0, h1, rfl⟩ := h
  cases x with
  | nil => simp at h1; exact absurd h1.1 ht
  | cons y x => simp at h1; rw [h1.2]; simp

theorem cons_ne' {t : Token} {r' : List Token} (h : OpEnd k X l (t :: r')) (ht : ¬ IsOp t) :
    ∃ r, l = t :: r ∧ OpEnd k X r r' := by
  obtain ⟨hk, x, h0, h1, h2⟩ := h
  cases x with
  | nil => simp at h2; exact absurd (h2.1 ▸ hk) ht
  | cons y x =>
    simp at h2
    obtain ⟨rfl, rfl⟩ := h2
    subst h1
    exact ⟨x ++ [.Newline], rfl, hk, x, Plain.suffix (v := [t]) (by simpa using h0), rfl, rfl⟩

theorem head (h : OpEnd k X l l') (hl : 1 < l.length) : l.head? = l'.head? := by
  obtain ⟨-, x, h0, rfl, rfl⟩ := h; cases x <;> simp at hl ⊢

theorem heads (h : OpEnd k X l l') (hl : 1 < l.length) {P : Token → Prop} (hp : ∀ t r, l = t :: r → P t) :
    ∀ t r, l' = t :: r → P t := by
  rintro t r rfl
  have := h.head hl
  cases l with
  | nil => simp at this
  | cons y l => simp at this; subst this; exact hp _ _ rfl

theorem heads_op (h : OpEnd k X l l') {P : Token → Prop} (hn : ∀ t, IsOp t → P t) (hp : ∀ t r, l = t :: r → P t) :
    ∀ t r, l' = t :: r → P t := by
  rintro t r rfl
  by_cases ht : IsOp t
  · exact hn _ ht
  · obtain ⟨r2, rfl, -⟩ := h.cons_ne' ht
    exact hp _ _ rfl

theorem heads' (h : OpEnd k X l l') {P : Token → Prop} (hn : P .Newline) (hp : ∀ t r, l' = t :: r → P t) :
    ∀ t r, l = t :: r → P t := by
  rintro t r rfl
  by_cases ht : t = .Newline
  · exact ht ▸ hn
  · obtain ⟨r2, rfl, -⟩ := h.cons_ne ht
    exact hp _ _ rfl

theorem ne (h : OpEnd k X l l') {t : Token} (hp : ∀ r, l ≠ t :: r) (ht : ¬ IsOp t := by simp [IsOp]) : ∀ r, l' ≠ t :: r := by
  rintro r rfl
  obtain ⟨r1, rfl, -⟩ := h.cons_ne' ht
  exact hp _ rfl

theorem ne_lt (h : OpEnd k X l l') (hl : 1 < l.length) {t : Token} (hp : ∀ r, l ≠ t :: r) : ∀ r, l' ≠ t :: r := by
  have := h.heads hl (P := fun x => x ≠ t) (by rintro x r rfl rfl; exact hp _ rfl)
  rintro r rfl
  exact this _ _ rfl rfl

theorem ne_op (h : OpEnd k X l l') {t : Token} (hl : k = t → 1 < l.length) (hp : ∀ r, l ≠ t :: r) : ∀ r, l' ≠ t :: r := by
  by_cases hk : k = t
  · exact h.ne_lt (hl hk) hp
  · obtain ⟨-, x, h0, rfl, rfl⟩ := h
    cases x with
    | nil => rintro r e; cases e; exact hk rfl
    | cons y x => rintro r e; simp at e; exact hp _ (by rw [e.1]; rfl)

theorem nonempty' (h : OpEnd k X l l') : l' ≠ [] := by
  obtain ⟨-, x, h0, rfl, rfl⟩ := h; simp

/-- Two tokens ahead. -/
theorem ne2 (h : OpEnd k X l l') {t s : Token} (ht : ¬ IsOp t) (hs : ¬ IsOp s) (hp : ∀ r, l ≠ t :: s :: r) :
    ∀ r, l' ≠ t :: s :: r := by
  rintro r rfl
  obtain ⟨r1, rfl, h2⟩ := h.cons_ne' ht
  exact h2.ne (t := s) (fun r2 e => hp r2 (by rw [e])) hs r rfl

theorem last (h : OpEnd k X [.Backslash] l') : False := by
  obtain ⟨-, x, h0, h1, -⟩ := h
  rcases x with _ | ⟨y, x⟩ <;> simp at h1

theorem noBlank (h : OpEnd k X l l') (hn : NoBlank l) : NoBlank l' := by
  refine ⟨fun w => h.ne (fun r => hn.1 w r) (by simp [IsOp]), fun r e => ?_⟩
  subst e
  obtain ⟨r1, rfl, h2⟩ := h.cons_ne' (by simp [IsOp])
  obtain ⟨r2, rfl, -⟩ := h2.cons_ne' (by simp [IsOp])
  exact hn.2 _ rfl

theorem op_delim {t : Token} (h : IsOp t) : t.isWordDelimiter = true := by
  simp only [IsOp, List.mem_cons, List.not_mem_nil, or_false] at h
  rcases h with rfl | rfl | rfl | rfl | rfl | rfl | rfl <;> rfl

theorem endsWord (h : OpEnd k X l l') (he : EndsWord l) : EndsWord l' := h.heads_op (fun _ => op_delim) he

theorem endsWord' (h : OpEnd k X l l') (he : EndsWord l') : EndsWord l := h.heads' rfl he

theorem noLineStart (h : OpEnd k X l l') (hl : 1 < l.length) (hn : NoLineStart l) : NoLineStart l' :=
  fun r => ⟨h.ne (fun r => (hn r).1) (by simp [IsOp]) r, h.ne (fun r => (hn r).2) (by simp [IsOp]) r⟩

theorem skip (h : OpEnd k X l l') (hs : Skip l r) (hr : 1 ≤ r.length) :
    ∃ r', OpEnd k X r r' ∧ Skip l' r' := by
  obtain ⟨bs, rfl, hb, hn⟩ := hs
  obtain ⟨r', rfl, h2⟩ := h.suffix hr
  exact ⟨r', h2, bs, rfl, hb, h2.noBlank hn⟩

theorem here {t : Token} (h : OpEnd k X (t :: r) l') : ¬ (t = .DLess ∨ t = .DLessDash) := by
  obtain ⟨-, x, h0, h1, rfl⟩ := h
  cases x with
  | nil => simp at h1; rw [h1.1]; simp
  | cons y x => simp at h1; rw [h1.1]; have := h0.noHere rfl y (by simp); simp [this]

theorem skip_cons {t : Token} (h : OpEnd k X l l') (hs : Skip l (t :: r)) (hr : 1 ≤ r.length) :
    ∃ r', OpEnd k X r r' ∧ Skip l' (t :: r') := by
  obtain ⟨r', h2, h3⟩ := h.skip hs (by simp)
  obtain ⟨r2, rfl, h4⟩ := h2.cons hr
  exact ⟨r2, h4, h3⟩

theorem line {n : Nl} (h : OpEnd k X l l') (hl : Line l n r) (hr : 1 < r.length) :
    ∃ r', OpEnd k X r r' ∧ Line l' n r' := by
  cases hl with
  | @newline bs _ hb =>
    obtain ⟨r', rfl, h2⟩ := suffix (v := bs ++ [.Newline]) (r := r) (by simpa using h) (by omega)
    exact ⟨r', h2, by simpa using Line.newline (r := r') hb⟩
  | @comment bs cs _ hb hc =>
    obtain ⟨r', rfl, h2⟩ := suffix (v := bs ++ .Pound :: cs ++ [.Newline]) (r := r) (by simpa using h) (by omega)
    exact ⟨r', h2, by simpa using Line.comment (r := r') hb hc⟩
  | lastComment => simp at hr

theorem optLine {n : Option Nl} (h : OpEnd k X l l') (hl : OptLine l n r) (hr : 1 < r.length) :
    ∃ r', OpEnd k X r r' ∧ OptLine l' n r' := by
  cases hl with
  | some hl => obtain ⟨r', h1, h2⟩ := h.line hl hr; exact ⟨r', h1, .some h2⟩
  | none hs hn => obtain ⟨r', h1, h2⟩ := h.skip hs (by omega); exact ⟨r', h1, .none h2 (h1.noLineStart hr hn)⟩

theorem lines {n : List Nl} (h : OpEnd k X l l') (hl : Lines l n r) (hr : 1 < r.length) :
    ∃ r', OpEnd k X r r' ∧ Lines l' n r' := by
  induction hl generalizing l' with
  | nil hs hn => obtain ⟨r', h1, h2⟩ := h.skip hs (by omega); exact ⟨r', h1, .nil h2 (h1.noLineStart hr hn)⟩
  | cons h1 h2 ih =>
    have := h2.le
    obtain ⟨l1, h3, h4⟩ := h.line h1 (by omega)
    obtain ⟨r', h5, h6⟩ := ih h3 hr
    exact ⟨r', h5, .cons h4 h6⟩

theorem keyword {w : Str} (h : OpEnd k X l l') (hk : Keyword w l r) :
    ∃ r', OpEnd k X r r' ∧ Keyword w l' r' := by
  obtain ⟨h1, h2⟩ := hk
  rcases h1 with rfl | rfl
  · obtain ⟨r', rfl, h3⟩ := h.cons_ne (by simp)
    exact ⟨r', h3, .inl rfl, h3.endsWord h2⟩
  · obtain ⟨r', rfl, h3⟩ := h.cons_ne (by simp)
    exact ⟨r', h3, .inr rfl, h3.endsWord h2⟩

theorem keyword' {w : Str} {r' : List Token} (h : OpEnd k X l l') (hk : Keyword w l' r') : ∃ r, Keyword w l r := by
  obtain ⟨h1, h2⟩ := hk
  rcases h1 with rfl | rfl
  · obtain ⟨r, rfl, h3⟩ := h.cons_ne' (by simp [IsOp])
    exact ⟨r, .inl rfl, h3.endsWord' h2⟩
  · obtain ⟨r, rfl, h3⟩ := h.cons_ne' (by simp [IsOp])
    exact ⟨r, .inr rfl, h3.endsWord' h2⟩

theorem noKeyword {w : Str} (h : OpEnd k X l l') (hk : ∀ r, ¬ Keyword w l r) : ∀ r, ¬ Keyword w l' r := by
  intro r hr
  obtain ⟨r', h2⟩ := h.keyword' hr
  exact hk _ h2

theorem kw {w : Str} (h : OpEnd k X l l') (hk : Kw w l r) (hr : 1 ≤ r.length) :
    ∃ r', OpEnd k X r r' ∧ Kw w l' r' := by
  obtain ⟨l1, h1, h2⟩ := hk
  have := h2.lt
  obtain ⟨l1', h3, h4⟩ := h.skip h1 (by omega)
  obtain ⟨r', h5, h6⟩ := h3.keyword h2
  exact ⟨r', h5, l1', h4, h6⟩

theorem atDelim {cfg : Delims} (hc : Delims.Proper cfg) (h : OpEnd k X l l') (hd : AtDelim cfg l) :
    AtDelim cfg l' := by
  rcases hd with ⟨t, ht, r, rfl⟩ | ⟨w, hw, r, hr⟩ | ⟨t, ht, r, rfl, hr⟩
  · obtain ⟨r', rfl, h3⟩ := h.cons_ne (hc t (by simp [ht])).2.2.1
    exact .inl ⟨t, ht, r', rfl⟩
  · obtain ⟨r', _, h2⟩ := h.keyword hr
    exact .inr (.inl ⟨w, hw, r', h2⟩)
  · obtain ⟨r', rfl, h3⟩ := h.cons_ne (hc t (by simp [ht])).2.2.1
    exact .inr (.inr ⟨t, ht, r', rfl, h3.endsWord hr⟩)

theorem compoundStart {kw : CompoundKw} (h : OpEnd k X l l') (hk : CompoundStart l kw) :
    CompoundStart l' kw := by
  cases hk with
  | subshell => obtain ⟨r', rfl, h3⟩ := h.cons_ne (by simp); exact .subshell
  | brace he => obtain ⟨r', rfl, h3⟩ := h.cons_ne (by simp); exact .brace (h3.endsWord he)
  | forKw hk => obtain ⟨r', _, h2⟩ := h.keyword hk; exact .forKw h2
  | caseKw hk => obtain ⟨r', _, h2⟩ := h.keyword hk; exact .caseKw h2
  | ifKw hk => obtain ⟨r', _, h2⟩ := h.keyword hk; exact .ifKw h2
  | whileKw hk => obtain ⟨r', _, h2⟩ := h.keyword hk; exact .whileKw h2
  | untilKw hk => obtain ⟨r', _, h2⟩ := h.keyword hk; exact .untilKw h2

theorem functionStart (h : OpEnd k X l l') (hk : FunctionStart l) : FunctionStart l' := by
  cases hk with
  | keyword hk => obtain ⟨r', _, h2⟩ := h.keyword hk; exact .keyword h2
  | paren =>
    obtain ⟨r', rfl, h3⟩ := h.cons_ne (by simp)
    obtain ⟨r', rfl, h3⟩ := h3.cons_ne (by simp)
    exact .paren
  | wsParen =>
    obtain ⟨r1, rfl, h3⟩ := h.cons_ne (by simp)
    obtain ⟨r2, rfl, h4⟩ := h3.cons_ne (by simp)
    obtain ⟨r3, rfl, h5⟩ := h4.cons_ne (by simp)
    exact .wsParen

theorem assignStart (h : OpEnd k X l l') (hk : AssignStart l) : AssignStart l' := by
  obtain ⟨x, r, rfl⟩ := hk
  obtain ⟨r', rfl, h3⟩ := h.cons_ne (by simp)
  obtain ⟨r', rfl, h3⟩ := h3.cons_ne (by simp)
  exact ⟨x, r', rfl⟩

theorem parens (h : OpEnd k X l l') (hp : Parens l r) (hr : 1 ≤ r.length) :
    ∃ r', OpEnd k X r r' ∧ Parens l' r' := by
  obtain ⟨l1, rfl, hs⟩ := hp
  obtain ⟨l2, rfl, h3⟩ := h.cons_ne (by simp)
  obtain ⟨r', h4, h5⟩ := h3.skip_cons hs hr
  exact ⟨r', h4, l2, rfl, h5⟩

theorem atDelim' {cfg : Delims} (hc : Delims.Proper cfg) (h : OpEnd k X l l') (hl : 1 < l.length) (hd : AtDelim cfg l') :
    AtDelim cfg l := by
  have tok : ∀ {t r}, t ∈ cfg.exactTokens ++ cfg.reservedTokens → l' = t :: r → ∃ r1, l = t :: r1 ∧ OpEnd k X r1 r := by
    rintro t r ht rfl
    have := h.head hl
    cases l with
    | nil => simp at this
    | cons y l =>
      simp at this
      subst this
      obtain ⟨r', h1, h2⟩ := h.cons_ne (hc _ ht).2.2.1
      cases h1
      exact ⟨l, rfl, h2⟩
  rcases hd with ⟨t, ht, r, rfl⟩ | ⟨w, hw, r, hr⟩ | ⟨t, ht, r, rfl, hr⟩
  · obtain ⟨r', rfl, h3⟩ := tok (by simp [ht]) rfl
    exact .inl ⟨t, ht, r', rfl⟩
  · obtain ⟨r', h2⟩ := h.keyword' hr
    exact .inr (.inl ⟨w, hw, r', h2⟩)
  · obtain ⟨r', rfl, h3⟩ := tok (by simp [ht]) rfl
    exact .inr (.inr ⟨t, ht, r', rfl, h3.endsWord' hr⟩)

theorem compoundStart' {kw : CompoundKw} (h : OpEnd k X l l') (hk : CompoundStart l' kw) : CompoundStart l kw := by
  cases hk with
  | subshell => obtain ⟨r', rfl, h3⟩ := h.cons_ne' (by simp [IsOp]); exact .subshell
  | brace he => obtain ⟨r', rfl, h3⟩ := h.cons_ne' (by simp [IsOp]); exact .brace (h3.endsWord' he)
  | forKw hk => obtain ⟨r', h2⟩ := h.keyword' hk; exact .forKw h2
  | caseKw hk => obtain ⟨r', h2⟩ := h.keyword' hk; exact .caseKw h2
  | ifKw hk => obtain ⟨r', h2⟩ := h.keyword' hk; exact .ifKw h2
  | whileKw hk => obtain ⟨r', h2⟩ := h.keyword' hk; exact .whileKw h2
  | untilKw hk => obtain ⟨r', h2⟩ := h.keyword' hk; exact .untilKw h2

theorem functionStart' (h : OpEnd k X l l') (hk : FunctionStart l') : FunctionStart l := by
  cases hk with
  | keyword hk => obtain ⟨r', h2⟩ := h.keyword' hk; exact .keyword h2
  | paren =>
    obtain ⟨r', rfl, h3⟩ := h.cons_ne' (by simp [IsOp])
    obtain ⟨r', rfl, h3⟩ := h3.cons_ne' (by simp [IsOp])
    exact .paren
  | wsParen =>
    obtain ⟨r1, rfl, h3⟩ := h.cons_ne' (by simp [IsOp])
    obtain ⟨r2, rfl, h4⟩ := h3.cons_ne' (by simp [IsOp])
    obtain ⟨r3, rfl, h5⟩ := h4.cons_ne' (by simp [IsOp])
    exact .wsParen

theorem assignStart' (h : OpEnd k X l l') (hk : AssignStart l') : AssignStart l := by
  obtain ⟨x, r, rfl⟩ := hk
  obtain ⟨r', rfl, h3⟩ := h.cons_ne' (by simp [IsOp])
  obtain ⟨r', rfl, h3⟩ := h3.cons_ne' (by simp [IsOp])
  exact ⟨x, r', rfl⟩

theorem noSep (h : OpEnd k X l l') (hl : 1 < l.length) (hn : ∀ r, l ≠ .Semi :: r ∧ l ≠ .Amp :: r) : ∀ r, l' ≠ .Semi :: r ∧ l' ≠ .Amp :: r :=
  fun r => ⟨h.ne_lt hl (fun r => (hn r).1) r, h.ne_lt hl (fun r => (hn r).2) r⟩

theorem sepAfter {sk : SeparatorKind} {n : Option Nl} (h : OpEnd k X l l') (hp : SepAfter l sk n r)
    (hr : 1 < r.length) : ∃ r', OpEnd k X r r' ∧ SepAfter l' sk n r' := by
  cases hp with
  | semi h1 =>
    obtain ⟨l1, rfl, h2⟩ := h.cons_ne (by simp)
    obtain ⟨r', h3, h4⟩ := h2.optLine h1 hr
    exact ⟨r', h3, .semi h4⟩
  | amp h1 =>
    obtain ⟨l1, rfl, h2⟩ := h.cons_ne (by simp)
    obtain ⟨r', h3, h4⟩ := h2.optLine h1 hr
    exact ⟨r', h3, .amp h4⟩
  | newline h1 h2 =>
    obtain ⟨r', h3, h4⟩ := h.line h1 hr
    exact ⟨r', h3, .newline h4 (h.noSep (by have := h1.lt; omega) h2)⟩
  | other h1 h2 h3 =>
    obtain ⟨r', h4, h5⟩ := h.skip h1 (by omega)
    exact ⟨r', h4, .other h5 (h4.noLineStart hr h2) (h.noSep (by have := h1.le; omega) h3)⟩

end OpEnd
end Conch.Gram
