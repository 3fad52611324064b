import Verif.Api
/-!
# What is in the streams that a parser reads
-/
namespace Conch
open Spec

/-- Only whitespace tokens. -/
def Spec.OnlyWs (l : List Token) : Prop := ∀ t ∈ l, ∃ w, t = .Whitespace w

/-- The last token that is not whitespace is a backslash. -/
def Spec.EndsInBackslash (l : List Token) : Prop := ∃ a ws, l = a ++ .Backslash :: ws ∧ OnlyWs ws

/-- A whitespace token of the list without some of the characters it starts with. -/
def Spec.Trimmed (l : List Token) (x : Token) : Prop :=
  ∃ w, x = .Whitespace w ∧ ∃ w0, .Whitespace w0 ∈ l ∧ w <:+ w0

theorem Spec.Trimmed.mono {l l' : List Token} {x : Token} (h : Trimmed l x) (hl : ∀ y ∈ l, y ∈ l') : Trimmed l' x := by
  obtain ⟨w, h1, w0, h2, h3⟩ := h
  exact ⟨w, h1, w0, hl _ h2, h3⟩

theorem Spec.Trimmed.of {l l' : List Token} {x : Token} (h : Trimmed l x) (hl : ∀ y ∈ l, y ∈ l' ∨ Trimmed l' y) :
    Trimmed l' x := by
  obtain ⟨w, h1, w0, h2, h3⟩ := h
  rcases hl _ h2 with h | ⟨w1, h, w2, h4, h5⟩
  · exact ⟨w, h1, w0, h, h3⟩
  · cases h
    exact ⟨w, h1, w2, h4, h3.trans h5⟩

theorem unescape_mem {x : PTok} {xs : List PTok} (h : x ∈ unescape xs) : x ∈ xs := by
  fun_induction unescape xs with
  | case1 => exact h
  | case2 => exact h
  | case3 y r h1 h2 ih => simp_all; grind
  | case4 => simp_all; grind
  | case5 => simp_all; grind

theorem onlyWs_append {a b : List Token} : OnlyWs (a ++ b) ↔ OnlyWs a ∧ OnlyWs b := by
  unfold OnlyWs
  constructor
  · exact fun h => ⟨fun t ht => h t (by simp [ht]), fun t ht => h t (by simp [ht])⟩
  · rintro ⟨h1, h2⟩ t ht
    rcases List.mem_append.1 ht with h | h
    · exact h1 t h
    · exact h2 t h

theorem ends_append {a b : List Token} :
    EndsInBackslash (a ++ b) ↔ EndsInBackslash b ∨ (EndsInBackslash a ∧ OnlyWs b) := by
  constructor
  · rintro ⟨x, ws, h, hw⟩
    rcases List.append_eq_append_iff.1 h with ⟨y, rfl, rfl⟩ | ⟨y, rfl, h2⟩
    · exact .inl ⟨y, ws, rfl, hw⟩
    · cases y with
      | nil =>
        simp at h2
        subst h2
        exact .inl ⟨[], ws, rfl, hw⟩
      | cons z y =>
        simp at h2
        obtain ⟨rfl, rfl⟩ := h2
        rw [onlyWs_append] at hw
        exact .inr ⟨⟨x, y, rfl, hw.1⟩, hw.2⟩
  · rintro (⟨x, ws, rfl, hw⟩ | ⟨⟨x, ws, rfl, hw⟩, hb⟩)
    · exact ⟨a ++ x, ws, by simp, hw⟩
    · exact ⟨x, ws ++ b, by simp, onlyWs_append.2 ⟨hw, hb⟩⟩

theorem ends_cons {t : Token} {l : List Token} :
    EndsInBackslash (t :: l) ↔ EndsInBackslash l ∨ (t = .Backslash ∧ OnlyWs l) := by
  have := ends_append (a := [t]) (b := l)
  simp only [List.singleton_append] at this
  rw [this]
  refine or_congr_right (and_congr_left fun _ => ?_)
  constructor
  · rintro ⟨a, ws, h, -⟩
    cases a with
    | nil => simp at h; exact h.1
    | cons _ _ => simp at h
  · rintro rfl
    exact ⟨[], [], rfl, by simp [OnlyWs]⟩

theorem not_ends_nil : ¬ EndsInBackslash [] := by rintro ⟨a, ws, h, -⟩; simp at h

theorem onlyWs_cons {t : Token} {l : List Token} :
    OnlyWs (t :: l) ↔ (∃ w, t = .Whitespace w) ∧ OnlyWs l := by
  have := onlyWs_append (a := [t]) (b := l)
  simp only [List.singleton_append] at this
  rw [this]
  simp [OnlyWs]

theorem untab_ws (w : Str) : OnlyWs (Gram.untab w) := by
  unfold Gram.untab
  simp only
  split
  · simp [OnlyWs]
  · rintro t ht; exact ⟨_, by simpa using ht⟩

theorem untab_trimmed {w : Str} {t : Token} {l : List Token} (h : t ∈ Gram.untab w) (hw : .Whitespace w ∈ l) :
    Trimmed l t := by
  unfold Gram.untab at h
  simp only at h
  split at h
  · simp at h
  · obtain rfl : t = _ := by simpa using h
    exact ⟨_, rfl, w, hw, List.dropWhile_suffix _⟩

theorem untab_ends (w : Str) : ¬ EndsInBackslash (Gram.untab w) := by
  rintro ⟨a, ws, h, -⟩
  obtain ⟨w', h'⟩ := untab_ws w .Backslash (by rw [h]; simp)
  cases h'

theorem stripLine_mem {t : Token} {c : List Token} (h : t ∈ Gram.stripLine c) :
    t ∈ c ∨ Trimmed c t := by
  fun_induction Gram.stripLine c with
  | case1 => simp at h
  | case2 w => exact .inr (untab_trimmed h (by simp))
  | case3 w t' r ih =>
    rcases List.mem_append.1 h with h | h
    · exact .inr (untab_trimmed h (by simp))
    · rcases List.mem_cons.1 h with rfl | h
      · simp
      · rcases ih h with h | h
        · simp [h]
        · exact .inr (h.mono fun y hy => by simp [hy])
  | case4 t' r _ _ ih =>
    rcases List.mem_cons.1 h with rfl | h
    · simp
    · rcases ih h with h | h
      · simp [h]
      · exact .inr (h.mono fun y hy => by simp [hy])

theorem stripLine_ends (c : List Token) : (OnlyWs (Gram.stripLine c) → OnlyWs c) ∧
    (EndsInBackslash (Gram.stripLine c) → EndsInBackslash c) := by
  fun_induction Gram.stripLine c with
  | case1 => exact ⟨id, id⟩
  | case2 w => exact ⟨fun _ => by simp [OnlyWs], fun h => absurd h (untab_ends w)⟩
  | case3 w t r ih =>
    simp only [onlyWs_append, onlyWs_cons, ends_append, ends_cons]
    refine ⟨fun h => ⟨⟨w, rfl⟩, h.2.1, ih.1 h.2.2⟩, ?_⟩
    rintro ((h | ⟨h1, h2⟩) | h)
    · exact .inl (.inl (ih.2 h))
    · exact .inl (.inr ⟨h1, ih.1 h2⟩)
    · exact absurd h.1 (untab_ends w)
  | case4 t r _ _ ih =>
    simp only [onlyWs_cons, ends_cons]
    refine ⟨fun h => ⟨h.1, ih.1 h.2⟩, ?_⟩
    rintro (h | ⟨h1, h2⟩)
    · exact .inl (ih.2 h)
    · exact .inr ⟨h1, ih.1 h2⟩

theorem lineOf_mem {strip : Bool} {t : Token} {c : List Token} (h : t ∈ Gram.lineOf strip c) :
    t ∈ c ∨ Trimmed c t := by
  unfold Gram.lineOf at h
  split at h
  · exact stripLine_mem h
  · exact .inl h

theorem lineOf_ends {strip : Bool} {c : List Token} (h : EndsInBackslash (Gram.lineOf strip c)) :
    EndsInBackslash c := by
  unfold Gram.lineOf at h
  split at h
  · exact (stripLine_ends c).2 h
  · exact h

theorem chunk_toks_eq (cs : List (List Token × SourcePos)) :
    (cs.flatMap fun c => annotate c.2 c.1).map (·.2) = cs.flatMap (·.1) := by
  induction cs with
  | nil => rfl
  | cons c cs ih => simp only [List.flatMap_cons, List.map_append, ih]; rw [annotate_toks]

theorem Spec.BodyLines.mem {strip : Bool} {e : SourcePos} {l r : List PTok} {cs}
    (h : BodyLines strip e l cs r) {t : Token} (ht : t ∈ cs.flatMap (·.1)) :
    t ∈ l.map (·.2) ∨ Trimmed (l.map (·.2)) t := by
  induction h with
  | delim => simp at ht
  | eof => simp at ht
  | @line c q l p cs r h1 h2 _ ih =>
    rw [List.flatMap_cons] at ht
    rcases List.mem_append.1 ht with ht | ht
    · rcases List.mem_append.1 ht with ht | ht
      · rcases lineOf_mem ht with h | h
        · left; simp only [List.map_append, List.mem_append]; exact .inl h
        · exact .inr (h.mono fun y hy => by simp only [List.map_append, List.mem_append]; exact .inl hy)
      · left; simp at ht; simp [ht]
    · rcases ih ht with h | h
      · left; simp only [List.map_append, List.map_cons, List.mem_append, List.mem_cons]; exact .inr (.inr h)
      · exact .inr (h.mono fun y hy => by
          simp only [List.map_append, List.map_cons, List.mem_append, List.mem_cons]; exact .inr (.inr hy))
  | lastLine h1 h2 =>
    simp only [List.flatMap_cons, List.flatMap_nil, List.append_nil] at ht
    exact lineOf_mem ht

theorem Spec.BodyLines.ends {strip : Bool} {e : SourcePos} {l r : List PTok} {cs}
    (h : BodyLines strip e l cs r) (ht : EndsInBackslash (cs.flatMap (·.1))) :
    EndsInBackslash (l.map (·.2)) := by
  induction h with
  | delim => exact absurd ht not_ends_nil
  | eof => exact absurd ht not_ends_nil
  | @line c q l p cs r h1 h2 _ ih =>
    rw [List.flatMap_cons, ends_append] at ht
    rcases ht with ht | ⟨ht, -⟩
    · rw [List.map_append, List.map_cons, ends_append, ends_cons]
      exact .inl (.inl (ih ht))
    · rw [ends_append, ends_cons] at ht
      rcases ht with (ht | ⟨ht, -⟩) | ⟨-, ht⟩
      · exact absurd ht not_ends_nil
      · cases ht
      · obtain ⟨w, hw⟩ := ht .Newline (by simp)
        cases hw
  | lastLine h1 h2 =>
    simp only [List.flatMap_cons, List.flatMap_nil, List.append_nil] at ht
    exact lineOf_ends ht

theorem Spec.Here.restMem {t : Token} {it it' body : AIter} (h : Here t it it' body) :
    ∀ x ∈ it'.toks, x ∈ it.toks := by
  obtain ⟨d, sv, l, cs, r, h1, h2, h3, rfl, rfl⟩ := h
  obtain ⟨xs, rfl, -⟩ := h3.suffix
  intro x hx
  unfold AIter.toks at *
  rw [h1]
  simp only [List.map_append, List.mem_append] at hx ⊢
  rw [annotate_toks] at hx
  grind

theorem Spec.Here.bodyMem {t : Token} {it it' body : AIter} (h : Here t it it' body) :
    ∀ x ∈ body.toks, x ∈ it.toks ∨ Trimmed it.toks x := by
  obtain ⟨d, sv, l, cs, r, h1, h2, h3, rfl, rfl⟩ := h
  intro x hx
  unfold AIter.toks at *
  rw [h1]
  simp only [chunk_toks_eq] at hx
  rcases h3.mem hx with h | h
  · left; simp only [List.map_append, List.mem_append]; exact .inr (.inr h)
  · exact .inr (h.mono fun y hy => by simp only [List.map_append, List.mem_append]; exact .inr (.inr hy))

/-- Every token of a part is a token of the whole, or whitespace whose tabs were removed. -/
theorem Spec.Part.toks {it0 it : AIter} (h : Part it0 it) :
    ∀ x ∈ it.toks, x ∈ it0.toks ∨ Trimmed it0.toks x := by
  induction h with
  | all => exact fun _ h => .inl h
  | tail _ ih => exact fun x h => ih x (by simp [AIter.toks] at h ⊢; exact .inr h)
  | backticks _ _ hs _ ih =>
    intro x hx
    rw [hs] at hx
    obtain ⟨y, hy, rfl⟩ := List.mem_map.1 hx
    refine ih _ ?_
    simp only [AIter.toks, List.map_cons, List.map_append, List.mem_cons, List.mem_append]
    exact .inr (.inl (List.mem_map_of_mem (unescape_mem hy)))
  | hereRest _ _ hh ih =>
    exact fun x hx => ih x (List.mem_cons_of_mem _ (hh.restMem x hx))
  | hereBody _ _ hh ih =>
    intro x hx
    rcases hh.bodyMem x hx with h | h
    · exact ih x (List.mem_cons_of_mem _ h)
    · exact .inr (h.of fun y hy => ih y (List.mem_cons_of_mem _ hy))

theorem Spec.Here.restEnds {t : Token} {it it' body : AIter} (h : Here t it it' body)
    (ht : EndsInBackslash it'.toks) : EndsInBackslash it.toks := by
  obtain ⟨d, sv, l, cs, r, h1, h2, h3, rfl, rfl⟩ := h
  obtain ⟨xs, rfl, -⟩ := h3.suffix
  unfold AIter.toks at *
  simp only [List.map_append, annotate_toks] at ht
  simp only [h1, List.map_append]
  rw [ends_append] at ht
  rcases ht with ht | ⟨ht, hw⟩
  · rw [ends_append, ends_append, ends_append]; exact .inl (.inl (.inl ht))
  · rcases h2 with ⟨u, q, h4, -⟩ | ⟨-, h4⟩
    · have h5 : EndsInBackslash ((d ++ sv).map (·.2)) := by
        rw [List.map_append, ends_append]; exact .inl ht
      rw [h4, List.map_append, ends_append] at h5
      rcases h5 with h5 | ⟨-, h5⟩
      · rw [List.map_cons, ends_cons] at h5
        rcases h5 with h5 | ⟨h5, -⟩
        · exact absurd h5 not_ends_nil
        · cases h5
      · obtain ⟨w, hw⟩ := h5 .Newline (by simp)
        cases hw
    · simp at h4
      obtain ⟨rfl, rfl⟩ := h4
      rw [ends_append]
      simpa using Or.inl ht

theorem Spec.Here.bodyEnds {t : Token} {it it' body : AIter} (h : Here t it it' body)
    (ht : EndsInBackslash body.toks) : EndsInBackslash it.toks := by
  obtain ⟨d, sv, l, cs, r, h1, h2, h3, rfl, rfl⟩ := h
  unfold AIter.toks at *
  simp only [chunk_toks_eq] at ht
  simp only [h1, List.map_append]
  rw [ends_append, ends_append]
  exact .inl (.inl (h3.ends ht))

/-- Without backticks, only a stream that ends in a backslash has a part that does. -/
theorem Spec.Part.ends {it0 it : AIter} (h : Part it0 it) (hb : ∀ t ∈ it0.toks, t ≠ .Backtick)
    (he : EndsInBackslash it.toks) : EndsInBackslash it0.toks := by
  induction h with
  | all => exact he
  | tail _ ih => exact ih (by simp only [AIter.toks, List.map_cons, ends_cons]; exact .inl he)
  | @backticks p q xs ys e sub h1 _ _ _ _ =>
    rcases h1.toks .Backtick (by simp [AIter.toks]) with h | ⟨w, h, -⟩
    · exact absurd rfl (hb _ h)
    · cases h
  | hereRest _ _ hh ih =>
    exact ih (by simp only [AIter.toks, List.map_cons, ends_cons]; exact .inl (hh.restEnds he))
  | hereBody _ _ hh ih =>
    exact ih (by simp only [AIter.toks, List.map_cons, ends_cons]; exact .inl (hh.bodyEnds he))

/-! ## The theory of the streams -/

/-- The builder's methods do not panic when they are called as documented. -/
def Spec.NoPanic (B : Builder) : Prop := ∀ c b, CallOk c → (B.call c b).1 ≠ .panic

/-- All streams that are read come from `it0`; `lb` allows blanks before `{`. -/
@[reducible] def Theory.parts (B : Builder) (it0 : AIter) (lb : Prop) : Theory B where
  J := Part it0
  K _ := True
  KE _ _ := True
  KP b := ¬ NoPanic B
  HS := ∃ t ∈ it0.toks, HeredocOp t
  LB := lb
  FN := ∃ t ∈ it0.toks, FunctionWord t
  next h := h.tail
  sub := by
    intro p q xs ys e sub h hb heq
    obtain ⟨sub', h1, h2⟩ := subIter_toks hb p q ys e
    rw [heq] at h1
    cases h1
    refine h.backticks hb h2 fun hc => ?_
    rw [subIter_closed hb p q ys e hc] at heq
    cases heq
    rfl
  seen := by
    intro p t r e h ht
    rcases h.toks t (by simp [AIter.toks]) with h | ⟨w, rfl, -⟩
    · exact ⟨t, h, ht⟩
    · rcases ht with h | h <;> cases h
  here h ht hh := ⟨h.hereRest ht hh, h.hereBody ht hh⟩
  fn := by
    intro p t r e h ht
    rcases h.toks t (by simp [AIter.toks]) with h | ⟨w, rfl, -⟩
    · exact ⟨t, h, ht⟩
    · rcases ht with h | h <;> cases h
  call := by
    intro c b _ hc _
    have : (B.call c b).1 = .panic → ¬ NoPanic B := fun h h' => h' _ _ hc h
    split <;> first | trivial | (rename_i h; exact this (by rw [h]))

end Conch
