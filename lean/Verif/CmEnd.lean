import Verif.NlRead
/-!
# A comment before the newline at the end of input: the lexical part

`CmEnd w T s l l'`: `l` ends with a newline, and `l'` has the blanks `w` and the tokens `T`, which start
with a newline or a comment, in its place. Unless `s` is true, `l` may also be that newline alone and `l'`
may be `T`, without the blanks.
-/
namespace Conch.Gram
open Conch

/-- Starts with a comment or a newline. -/
def Starts (T : List Token) : Prop := ∃ q, T = .Pound :: q ∨ T = .Newline :: q

/-- The newline at the end is replaced by blanks and `T`. -/
def CmEnd (w : Str) (T : List Token) (s : Bool) (l l' : List Token) : Prop :=
  Starts T ∧ ((∃ x, Plain none x ∧ l = x ++ [.Newline] ∧ l' = x ++ .Whitespace w :: T) ∨
    (s = false ∧ l = [.Newline] ∧ l' = T))

namespace CmEnd
variable {w : Str} {T : List Token} {s : Bool} {l l' r : List Token}

theorem weak (h : CmEnd w T true l l') : CmEnd w T s l l' := ⟨h.1, .inl (by simpa using h.2)⟩

theorem any (h : CmEnd w T s l l') : CmEnd w T false l l' := ⟨h.1, h.2.imp id fun h => ⟨rfl, h.2⟩⟩

theorem strict (h : CmEnd w T s l l') (hl : 1 < l.length) : CmEnd w T true l l' := by
  refine ⟨h.1, .inl ?_⟩
  rcases h.2 with h | ⟨-, rfl, -⟩
  · exact h
  · simp at hl

theorem len (h : CmEnd w T s l l') : 1 ≤ l.length := by
  rcases h.2 with ⟨x, -, rfl, -⟩ | ⟨-, rfl, -⟩ <;> simp

theorem one (h : CmEnd w T s l l') (hl : l.length ≤ 1) : l = [.Newline] ∧ (l' = .Whitespace w :: T ∨ l' = T) := by
  rcases h.2 with ⟨x, -, rfl, rfl⟩ | ⟨-, rfl, rfl⟩
  · cases x with
    | nil => exact ⟨rfl, .inl rfl⟩
    | cons => simp at hl
  · exact ⟨rfl, .inr rfl⟩

theorem suffix_strict {v : List Token} (h : CmEnd w T s (v ++ r) l') (hv : v ≠ [] ∨ s = true) (hr : 1 ≤ r.length) :
    ∃ r', l' = v ++ r' ∧ CmEnd w T true r r' := by
  obtain ⟨ht, ⟨x, h0, h1, rfl⟩ | ⟨rfl, h1, h2⟩⟩ := h
  · rcases List.append_eq_append_iff.1 h1 with ⟨y, rfl, rfl⟩ | ⟨y, rfl, h⟩
    · exact ⟨y ++ .Whitespace w :: T, by simp, ht, .inl ⟨y, h0.suffix, rfl, rfl⟩⟩
    · have : y.length + r.length = 1 := by
        have := congrArg List.length h; simp at this; omega
      cases y with
      | nil => exact ⟨.Whitespace w :: T, by simp, ht, .inl ⟨[], .nil, by simpa using h.symm, rfl⟩⟩
      | cons => simp at this; omega
  · have := congrArg List.length h1
    cases v with
    | nil => simp at hv
    | cons => simp only [List.length_append, List.length_cons, List.length_nil] at this; omega

theorem suffix {v : List Token} (h : CmEnd w T s (v ++ r) l') (hv : v ≠ []) (hr : 1 ≤ r.length) :
    ∃ r', l' = v ++ r' ∧ CmEnd w T false r r' := by
  obtain ⟨r', h1, h2⟩ := h.suffix_strict (.inl hv) hr
  exact ⟨r', h1, h2.weak⟩

theorem suffix_lt {v : List Token} (h : CmEnd w T s (v ++ r) l') (hr : 1 < r.length) :
    ∃ r', l' = v ++ r' ∧ CmEnd w T false r r' := by
  obtain ⟨r', h1, h2⟩ := (h.strict (by simp; omega)).suffix_strict (.inr rfl) (by omega)
  exact ⟨r', h1, h2.weak⟩

theorem cons_strict {t : Token} (h : CmEnd w T s (t :: r) l') (hr : 1 ≤ r.length) :
    ∃ r', l' = t :: r' ∧ CmEnd w T true r r' := by
  obtain ⟨r', h1, h2⟩ := suffix_strict (v := [t]) (r := r) h (.inl (by simp)) hr
  exact ⟨r', by simpa using h1, h2⟩

theorem cons {t : Token} (h : CmEnd w T s (t :: r) l') (hr : 1 ≤ r.length) :
    ∃ r', l' = t :: r' ∧ CmEnd w T false r r' := by
  obtain ⟨r', h1, h2⟩ := h.cons_strict hr
  exact ⟨r', h1, h2.weak⟩

theorem cons_ne_strict {t : Token} (h : CmEnd w T s (t :: r) l') (ht : t ≠ .Newline) :
    ∃ r', l' = t :: r' ∧ CmEnd w T true r r' := by
  refine h.cons_strict ?_
  rcases h.2 with ⟨x, h0, h1, rfl⟩ | ⟨-, h1, -⟩
  · cases x with
    | nil => simp at h1; exact absurd h1.1 ht
    | cons y x => simp at h1; rw [h1.2]; simp
  · simp at h1; exact absurd h1.1 ht

theorem cons_ne {t : Token} (h : CmEnd w T s (t :: r) l') (ht : t ≠ .Newline) :
    ∃ r', l' = t :: r' ∧ CmEnd w T false r r' := by
  obtain ⟨r', h1, h2⟩ := h.cons_ne_strict ht
  exact ⟨r', h1, h2.weak⟩

/-- Not a token that the blanks or the tokens after them may start with. -/
def Other (t : Token) : Prop := t ≠ .Newline ∧ t ≠ .Pound ∧ ∀ w, t ≠ .Whitespace w

theorem cons_ne' {t : Token} {r' : List Token} (h : CmEnd w T s l (t :: r')) (ht : Other t) :
    ∃ r, l = t :: r ∧ CmEnd w T true r r' := by
  obtain ⟨hs, ⟨x, h0, h1, h2⟩ | ⟨-, h1, rfl⟩⟩ := id h
  · cases x with
    | nil => simp at h2; exact absurd h2.1 (ht.2.2 w)
    | cons y x =>
      simp at h2
      obtain ⟨rfl, rfl⟩ := h2
      subst h1
      exact ⟨x ++ [.Newline], rfl, hs, .inl ⟨x, Plain.suffix (v := [t]) (by simpa using h0), rfl, rfl⟩⟩
  · obtain ⟨q, h | h⟩ := hs
    · simp at h; exact absurd h.1 ht.2.1
    · simp at h; exact absurd h.1 ht.1

theorem head (h : CmEnd w T s l l') (hl : 1 < l.length) : l.head? = l'.head? := by
  obtain ⟨x, h0, rfl, rfl⟩ : ∃ x, Plain none x ∧ l = x ++ [.Newline] ∧ l' = x ++ .Whitespace w :: T := by
    simpa using (h.strict hl).2
  cases x <;> simp at hl ⊢

theorem heads (h : CmEnd w T s l l') (hl : 1 < l.length) {P : Token → Prop} (hp : ∀ t r, l = t :: r → P t) :
    ∀ t r, l' = t :: r → P t := by
  rintro t r rfl
  have := h.head hl
  cases l with
  | nil => simp at this
  | cons y l => simp at this; subst this; exact hp _ _ rfl

theorem heads_nl (h : CmEnd w T s l l') {P : Token → Prop} (hw : ∀ w, P (.Whitespace w)) (hn : s = true ∨ P .Newline ∧ P .Pound)
    (hp : ∀ t r, l = t :: r → P t) : ∀ t r, l' = t :: r → P t := by
  rintro t r rfl
  by_cases hl : 1 < l.length
  · exact h.heads hl hp _ _ rfl
  obtain ⟨-, h1 | h1⟩ := h.one (by omega)
  · cases h1; exact hw _
  · rcases hn with rfl | hn
    · rcases h.2 with ⟨x, -, rfl, h3⟩ | ⟨h3, -⟩
      · cases x with
        | nil => simp at h3; rw [h3.1]; exact hw _
        | cons => simp at hl
      · cases h3
    · obtain ⟨q, h3 | h3⟩ := h.1
      · rw [h3] at h1; cases h1; exact hn.2
      · rw [h3] at h1; cases h1; exact hn.1

theorem ne (h : CmEnd w T s l l') {t : Token} (hp : ∀ r, l ≠ t :: r) (ht : Other t := by simp [CmEnd.Other]) : ∀ r, l' ≠ t :: r := by
  rintro r rfl
  obtain ⟨r1, rfl, -⟩ := h.cons_ne' ht
  exact hp _ rfl

theorem nonempty' (h : CmEnd w T s l l') : l' ≠ [] := by
  obtain ⟨⟨q, hq⟩, ⟨x, h0, -, rfl⟩ | ⟨-, -, rfl⟩⟩ := h
  · simp
  · rcases hq with rfl | rfl <;> simp

theorem ne_lt (h : CmEnd w T s l l') (hl : 1 < l.length) {t : Token} (hp : ∀ r, l ≠ t :: r) : ∀ r, l' ≠ t :: r := by
  have := h.heads hl (P := fun x => x ≠ t) (by rintro x r rfl rfl; exact hp _ rfl)
  rintro r rfl
  exact this _ _ rfl rfl

theorem ne_pound (h : CmEnd w T true l l') (hp : ∀ r, l ≠ .Pound :: r) : ∀ r, l' ≠ .Pound :: r := by
  have := h.heads_nl (P := fun x => x ≠ .Pound) (by simp) (.inl rfl) (by rintro x r rfl rfl; exact hp _ rfl)
  rintro r rfl
  exact this _ _ rfl rfl

/-- Two tokens ahead. -/
theorem ne2 (h : CmEnd w T s l l') {t u : Token} (ht : Other t) (hu : Other u) (hp : ∀ r, l ≠ t :: u :: r) :
    ∀ r, l' ≠ t :: u :: r := by
  rintro r rfl
  obtain ⟨r1, rfl, h2⟩ := h.cons_ne' ht
  exact h2.ne (t := u) (fun r2 e => hp r2 (by rw [e])) hu r rfl

theorem last (h : CmEnd w T s [.Backslash] l') : False := by
  rcases h.2 with ⟨x, h0, h1, -⟩ | ⟨-, h1, -⟩
  · rcases x with _ | ⟨y, x⟩ <;> simp at h1
  · simp at h1

theorem escaped' (h : CmEnd w T s l (.Backslash :: .Newline :: r)) : ∃ r', l = .Backslash :: .Newline :: r' := by
  obtain ⟨r1, rfl, h2⟩ := h.cons_ne' (by simp [Other])
  rcases r1 with _ | ⟨t, r1⟩
  · exact h.last.elim
  · by_cases ht : t = .Newline
    · exact ⟨r1, by rw [ht]⟩
    · obtain ⟨r2, h3, -⟩ := h2.cons_ne ht
      cases h3; exact absurd rfl ht

theorem noBlank (h : CmEnd w T s l l') (hl : 1 < l.length) (hn : NoBlank l) : NoBlank l' := by
  refine ⟨fun v r e => ?_, fun r e => ?_⟩
  · have := h.heads hl (P := fun t => ∀ v, t ≠ .Whitespace v) (by rintro t r rfl v rfl; exact hn.1 _ _ rfl)
    exact this _ _ e v rfl
  · subst e
    obtain ⟨r', h1⟩ := h.escaped'
    exact hn.2 _ h1

theorem _root_.Conch.Gram.Starts.noBlank (h : Starts T) : NoBlank T := by
  obtain ⟨q, rfl | rfl⟩ := h <;> simp [NoBlank]

theorem endsWord (h : CmEnd w T true l l') (he : EndsWord l) : EndsWord l' := h.heads_nl (fun _ => rfl) (.inl rfl) he

theorem noLineStart (h : CmEnd w T s l l') (hl : 1 < l.length) (hn : NoLineStart l) : NoLineStart l' := by
  have := h.heads hl (P := fun x => x ≠ .Newline ∧ x ≠ .Pound)
    (by rintro t r rfl; exact ⟨by rintro rfl; exact (hn _).1 rfl, by rintro rfl; exact (hn _).2 rfl⟩)
  exact fun r => ⟨fun e => (this _ _ e).1 rfl, fun e => (this _ _ e).2 rfl⟩

theorem blanks_ws {bs : List Token} (h : Blanks bs) : Blanks (bs ++ [.Whitespace w]) := by
  induction h with
  | nil => exact .ws .nil
  | ws _ ih => exact .ws ih
  | escaped _ ih => exact .escaped ih

/-- Skipping blanks; before the newline the new blanks are skipped too. -/
theorem skip' (h : CmEnd w T s l l') (hs : Skip l r) (hr : 1 ≤ r.length) :
    ∃ r', CmEnd w T false r r' ∧ Skip l' r' ∧ (1 < r.length ∨ r = [.Newline] ∧ r' = T) := by
  obtain ⟨bs, rfl, hb, hn⟩ := hs
  by_cases hl : 1 < r.length
  · obtain ⟨r', rfl, h2⟩ : ∃ r', l' = bs ++ r' ∧ CmEnd w T true r r' := by
      by_cases hb : bs = []
      · subst hb; exact ⟨l', rfl, h.strict (by simpa using hl)⟩
      · exact h.suffix_strict (.inl hb) hr
    exact ⟨r', h2.weak, ⟨bs, rfl, hb, h2.noBlank hl hn⟩, .inl hl⟩
  · obtain ⟨hT, ⟨x, h0, h1, rfl⟩ | ⟨rfl, h1, rfl⟩⟩ := h
    · obtain ⟨t, rfl⟩ : ∃ t, r = [t] := List.length_eq_one_iff.1 (by omega)
      obtain ⟨rfl, h2⟩ := List.append_inj' h1 rfl
      cases h2
      exact ⟨T, ⟨hT, .inr ⟨rfl, rfl, rfl⟩⟩, ⟨bs ++ [.Whitespace w], by simp, blanks_ws hb, hT.noBlank⟩,
        .inr ⟨rfl, rfl⟩⟩
    · obtain rfl : r = [.Newline] := by
        cases bs with
        | nil => simpa using h1
        | cons =>
          have := congrArg List.length h1
          simp only [List.length_append, List.length_cons, List.length_nil] at this
          omega
      exact ⟨l', ⟨hT, .inr ⟨rfl, rfl, rfl⟩⟩, .refl hT.noBlank, .inr ⟨rfl, rfl⟩⟩

theorem skip (h : CmEnd w T s l l') (hs : Skip l r) (hr : 1 ≤ r.length) :
    ∃ r', CmEnd w T false r r' ∧ Skip l' r' := by
  obtain ⟨r', h1, h2, -⟩ := h.skip' hs hr
  exact ⟨r', h1, h2⟩

theorem here {t : Token} (h : CmEnd w T s (t :: r) l') : ¬ (t = .DLess ∨ t = .DLessDash) := by
  rcases h.2 with ⟨x, h0, h1, rfl⟩ | ⟨-, h1, -⟩
  · cases x with
    | nil => simp at h1; rw [h1.1]; simp
    | cons y x => simp at h1; rw [h1.1]; have := h0.noHere rfl y (by simp); simp [this]
  · simp at h1; rw [h1.1]; simp

theorem skip_cons_strict {t : Token} (h : CmEnd w T s l l') (hs : Skip l (t :: r)) (hr : 1 ≤ r.length) :
    ∃ r', CmEnd w T true r r' ∧ Skip l' (t :: r') := by
  obtain ⟨r', h2, h3⟩ := h.skip hs (by simp)
  obtain ⟨r2, rfl, h4⟩ := h2.cons_strict hr
  exact ⟨r2, h4, h3⟩

theorem skip_cons {t : Token} (h : CmEnd w T s l l') (hs : Skip l (t :: r)) (hr : 1 ≤ r.length) :
    ∃ r', CmEnd w T false r r' ∧ Skip l' (t :: r') := by
  obtain ⟨r', h1, h2⟩ := h.skip_cons_strict hs hr
  exact ⟨r', h1.weak, h2⟩

theorem line {n : Nl} (h : CmEnd w T s l l') (hl : Line l n r) (hr : 1 < r.length) :
    ∃ r', CmEnd w T false r r' ∧ Line l' n r' := by
  cases hl with
  | @newline bs _ hb =>
    obtain ⟨r', rfl, h2⟩ := suffix (v := bs ++ [.Newline]) (r := r) (by simpa using h) (by simp) (by omega)
    exact ⟨r', h2, by simpa using Line.newline (r := r') hb⟩
  | @comment bs cs _ hb hc =>
    obtain ⟨r', rfl, h2⟩ := suffix (v := bs ++ .Pound :: cs ++ [.Newline]) (r := r) (by simpa using h) (by simp) (by omega)
    exact ⟨r', h2, by simpa using Line.comment (r := r') hb hc⟩
  | lastComment => simp at hr

theorem optLine {n : Option Nl} (h : CmEnd w T s l l') (hl : OptLine l n r) (hr : 1 < r.length) :
    ∃ r', CmEnd w T false r r' ∧ OptLine l' n r' := by
  cases hl with
  | some hl => obtain ⟨r', h1, h2⟩ := h.line hl hr; exact ⟨r', h1, .some h2⟩
  | none hs hn => obtain ⟨r', h1, h2⟩ := h.skip hs (by omega); exact ⟨r', h1, .none h2 (h1.noLineStart hr hn)⟩

theorem lines {n : List Nl} (h : CmEnd w T s l l') (hl : Lines l n r) (hr : 1 < r.length) :
    ∃ r', CmEnd w T false r r' ∧ Lines l' n r' := by
  induction hl generalizing l' s with
  | nil hs hn => obtain ⟨r', h1, h2⟩ := h.skip hs (by omega); exact ⟨r', h1, .nil h2 (h1.noLineStart hr hn)⟩
  | cons h1 h2 ih =>
    have := h2.le
    obtain ⟨l1, h3, h4⟩ := h.line h1 (by omega)
    obtain ⟨r', h5, h6⟩ := ih h3 hr
    exact ⟨r', h5, .cons h4 h6⟩

theorem keyword_strict {v : Str} (h : CmEnd w T s l l') (hk : Keyword v l r) :
    ∃ r', CmEnd w T true r r' ∧ Keyword v l' r' := by
  obtain ⟨h1, h2⟩ := hk
  rcases h1 with rfl | rfl
  · obtain ⟨r', rfl, h3⟩ := h.cons_ne_strict (by simp)
    exact ⟨r', h3, .inl rfl, h3.endsWord h2⟩
  · obtain ⟨r', rfl, h3⟩ := h.cons_ne_strict (by simp)
    exact ⟨r', h3, .inr rfl, h3.endsWord h2⟩

theorem keyword {v : Str} (h : CmEnd w T s l l') (hk : Keyword v l r) :
    ∃ r', CmEnd w T false r r' ∧ Keyword v l' r' := by
  obtain ⟨r', h1, h2⟩ := h.keyword_strict hk
  exact ⟨r', h1.weak, h2⟩

/-- The newline ends a word as the blanks do. -/
theorem endsWord' (h : CmEnd w T true l l') (he : EndsWord l') : EndsWord l := by
  rintro t r rfl
  by_cases hn : t = .Newline
  · subst hn; rfl
  · obtain ⟨r', rfl, -⟩ := h.cons_ne hn
    exact he _ _ rfl

theorem keyword' {v : Str} {r' : List Token} (h : CmEnd w T s l l') (hk : Keyword v l' r') :
    ∃ r, Keyword v l r := by
  obtain ⟨h1, h2⟩ := hk
  rcases h1 with rfl | rfl
  · obtain ⟨r, rfl, h3⟩ := h.cons_ne' (by simp [Other])
    exact ⟨r, .inl rfl, h3.endsWord' h2⟩
  · obtain ⟨r, rfl, h3⟩ := h.cons_ne' (by simp [Other])
    exact ⟨r, .inr rfl, h3.endsWord' h2⟩

theorem noKeyword {v : Str} (h : CmEnd w T s l l') (hk : ∀ r, ¬ Keyword v l r) : ∀ r, ¬ Keyword v l' r := by
  intro r hr
  obtain ⟨r', h2⟩ := h.keyword' hr
  exact hk _ h2

theorem kw_strict {v : Str} (h : CmEnd w T s l l') (hk : Kw v l r) (hr : 1 ≤ r.length) :
    ∃ r', CmEnd w T true r r' ∧ Kw v l' r' := by
  obtain ⟨l1, h1, h2⟩ := hk
  have := h2.lt
  obtain ⟨l1', h3, h4⟩ := h.skip h1 (by omega)
  obtain ⟨r', h5, h6⟩ := h3.keyword_strict h2
  exact ⟨r', h5, l1', h4, h6⟩

theorem kw {v : Str} (h : CmEnd w T s l l') (hk : Kw v l r) (hr : 1 ≤ r.length) :
    ∃ r', CmEnd w T false r r' ∧ Kw v l' r' := by
  obtain ⟨r', h1, h2⟩ := h.kw_strict hk hr
  exact ⟨r', h1.weak, h2⟩

theorem atDelim {cfg : Delims} (hc : Delims.Proper cfg) (h : CmEnd w T s l l') (hd : AtDelim cfg l) :
    AtDelim cfg l' := by
  rcases hd with ⟨t, ht, r, rfl⟩ | ⟨w, hw, r, hr⟩ | ⟨t, ht, r, rfl, hr⟩
  · obtain ⟨r', rfl, h3⟩ := h.cons_ne (hc t (by simp [ht])).2.2.1
    exact .inl ⟨t, ht, r', rfl⟩
  · obtain ⟨r', _, h2⟩ := h.keyword hr
    exact .inr (.inl ⟨w, hw, r', h2⟩)
  · obtain ⟨r', rfl, h3⟩ := h.cons_ne_strict (hc t (by simp [ht])).2.2.1
    exact .inr (.inr ⟨t, ht, r', rfl, h3.endsWord hr⟩)

theorem atDelim' {cfg : Delims} (hc : Delims.Proper cfg) (h : CmEnd w T s l l') (hd : AtDelim cfg l') :
    AtDelim cfg l := by
  have other : ∀ t ∈ cfg.exactTokens ++ cfg.reservedTokens, Other t := fun t ht =>
    ⟨(hc t ht).2.2.1, (hc t ht).2.2.2, (hc t ht).1⟩
  rcases hd with ⟨t, ht, r, rfl⟩ | ⟨w, hw, r, hr⟩ | ⟨t, ht, r, rfl, hr⟩
  · obtain ⟨r', rfl, h3⟩ := h.cons_ne' (other t (by simp [ht]))
    exact .inl ⟨t, ht, r', rfl⟩
  · obtain ⟨r', h2⟩ := h.keyword' hr
    exact .inr (.inl ⟨w, hw, r', h2⟩)
  · obtain ⟨r', rfl, h3⟩ := h.cons_ne' (other t (by simp [ht]))
    exact .inr (.inr ⟨t, ht, r', rfl, h3.endsWord' hr⟩)

theorem compoundStart {k : CompoundKw} (h : CmEnd w T s l l') (hk : CompoundStart l k) :
    CompoundStart l' k := by
  cases hk with
  | subshell => obtain ⟨r', rfl, h3⟩ := h.cons_ne (by simp); exact .subshell
  | brace he => obtain ⟨r', rfl, h3⟩ := h.cons_ne_strict (by simp); exact .brace (h3.endsWord he)
  | forKw hk => obtain ⟨r', _, h2⟩ := h.keyword hk; exact .forKw h2
  | caseKw hk => obtain ⟨r', _, h2⟩ := h.keyword hk; exact .caseKw h2
  | ifKw hk => obtain ⟨r', _, h2⟩ := h.keyword hk; exact .ifKw h2
  | whileKw hk => obtain ⟨r', _, h2⟩ := h.keyword hk; exact .whileKw h2
  | untilKw hk => obtain ⟨r', _, h2⟩ := h.keyword hk; exact .untilKw h2

theorem compoundStart' {k : CompoundKw} (h : CmEnd w T s l l') (hk : CompoundStart l' k) :
    CompoundStart l k := by
  cases hk with
  | subshell => obtain ⟨r', rfl, h3⟩ := h.cons_ne' (by simp [Other]); exact .subshell
  | brace he => obtain ⟨r', rfl, h3⟩ := h.cons_ne' (by simp [Other]); exact .brace (h3.endsWord' he)
  | forKw hk => obtain ⟨r', h2⟩ := h.keyword' hk; exact .forKw h2
  | caseKw hk => obtain ⟨r', h2⟩ := h.keyword' hk; exact .caseKw h2
  | ifKw hk => obtain ⟨r', h2⟩ := h.keyword' hk; exact .ifKw h2
  | whileKw hk => obtain ⟨r', h2⟩ := h.keyword' hk; exact .whileKw h2
  | untilKw hk => obtain ⟨r', h2⟩ := h.keyword' hk; exact .untilKw h2

theorem functionStart (h : CmEnd w T s l l') (hk : FunctionStart l) : FunctionStart l' := by
  cases hk with
  | keyword hk => obtain ⟨r', _, h2⟩ := h.keyword hk; exact .keyword h2
  | paren =>
    obtain ⟨r', rfl, h3⟩ := h.cons_ne (by simp)
    obtain ⟨r', rfl, h3⟩ := h3.cons_ne (by simp)
    exact .paren
  | wsParen =>
    obtain ⟨r1, rfl, h3⟩ := h.cons_ne (by simp)
    obtain ⟨r2, rfl, h4⟩ := h3.cons_ne (by simp)
    obtain ⟨r3, rfl, h5⟩ := h4.cons_ne (by simp)
    exact .wsParen

theorem functionStart' (h : CmEnd w T s l l') (hk : FunctionStart l') : FunctionStart l := by
  cases hk with
  | keyword hk => obtain ⟨r', h2⟩ := h.keyword' hk; exact .keyword h2
  | paren =>
    obtain ⟨r', rfl, h3⟩ := h.cons_ne' (by simp [Other])
    obtain ⟨r', rfl, h3⟩ := h3.cons_ne' (by simp [Other])
    exact .paren
  | @wsParen _ v _ =>
    obtain ⟨r1, rfl, h3⟩ := h.cons_ne' (by simp [Other])
    by_cases hl : 1 < r1.length
    · have := h3.head hl
      rcases r1 with _ | ⟨t, r1⟩
      · simp at hl
      · simp at this
        subst this
        obtain ⟨r2, h4, h5⟩ := h3.cons_ne_strict (by simp)
        cases h4
        obtain ⟨r3, rfl, -⟩ := h5.cons_ne' (by simp [Other])
        exact .wsParen
    · obtain ⟨-, h4 | h4⟩ := h3.one (by omega)
      · obtain ⟨q, h5 | h5⟩ := h.1 <;> rw [h5] at h4 <;> simp at h4
      · obtain ⟨q, h5 | h5⟩ := h.1 <;> rw [h5] at h4 <;> simp at h4

theorem assignStart' (h : CmEnd w T s l l') (hk : AssignStart l') : AssignStart l := by
  obtain ⟨x, r, rfl⟩ := hk
  obtain ⟨r', rfl, h3⟩ := h.cons_ne' (by simp [Other])
  obtain ⟨r', rfl, h3⟩ := h3.cons_ne' (by simp [Other])
  exact ⟨x, r', rfl⟩

theorem parens (h : CmEnd w T s l l') (hp : Parens l r) (hr : 1 ≤ r.length) :
    ∃ r', CmEnd w T false r r' ∧ Parens l' r' := by
  obtain ⟨l1, rfl, hs⟩ := hp
  obtain ⟨l2, rfl, h3⟩ := h.cons_ne (by simp)
  obtain ⟨r', h4, h5⟩ := h3.skip_cons hs hr
  exact ⟨r', h4, l2, rfl, h5⟩

theorem noSep (h : CmEnd w T s l l') (hn : ∀ r, l ≠ .Semi :: r ∧ l ≠ .Amp :: r) : ∀ r, l' ≠ .Semi :: r ∧ l' ≠ .Amp :: r :=
  fun r => ⟨h.ne (fun r => (hn r).1) (by simp [Other]) r, h.ne (fun r => (hn r).2) (by simp [Other]) r⟩

theorem sepAfter {k : SeparatorKind} {n : Option Nl} (h : CmEnd w T s l l') (hp : SepAfter l k n r)
    (hr : 1 < r.length) : ∃ r', CmEnd w T false r r' ∧ SepAfter l' k n r' := by
  cases hp with
  | semi h1 =>
    obtain ⟨l1, rfl, h2⟩ := h.cons_ne (by simp)
    obtain ⟨r', h3, h4⟩ := h2.optLine h1 hr
    exact ⟨r', h3, .semi h4⟩
  | amp h1 =>
    obtain ⟨l1, rfl, h2⟩ := h.cons_ne (by simp)
    obtain ⟨r', h3, h4⟩ := h2.optLine h1 hr
    exact ⟨r', h3, .amp h4⟩
  | newline h1 h2 =>
    obtain ⟨r', h3, h4⟩ := h.line h1 hr
    exact ⟨r', h3, .newline h4 (h.noSep h2)⟩
  | other h1 h2 h3 =>
    obtain ⟨r', h4, h5⟩ := h.skip h1 (by omega)
    exact ⟨r', h4, .other h5 (h4.noLineStart hr h2) (h.noSep h3)⟩

end CmEnd
end Conch.Gram
