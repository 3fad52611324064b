import Verif.Alike
/-!
# C56: fragments that differ only in their text
-/
namespace Conch
open Gram
open Spec (Alike)

/-! ## Words -/

section
variable {K : Core}

/-- Parts of words that differ only in their text. -/
inductive SRel (K : Core) : SimpleWordKind K.C → SimpleWordKind K.C → Prop
  | lit {x y} : Txt' x y → SRel K (.Literal x) (.Literal y)
  | esc {x y} : Txt' x y → SRel K (.Escaped x) (.Escaped y)
  | param {p q} : mapParam K.ofString p = mapParam K.ofString q → SRel K (.Param p) (.Param q)
  | cmd {g h} : g.commands = h.commands → SRel K (.CommandSubst g) (.CommandSubst h)
  | subst {s t} : K.substOf s = K.substOf t → SRel K (.Subst s) (.Subst t)
  | same {s} : SRel K s s

/-- The same for parts that may be quoted. -/
inductive WRel (K : Core) : WordKind K.C → WordKind K.C → Prop
  | simple {s t} : SRel K s t → WRel K (.Simple s) (.Simple t)
  | single {x y} : Txt' x y → WRel K (.SingleQuoted x) (.SingleQuoted y)
  | double {v w} : List.Forall₂ (SRel K) v w → WRel K (.DoubleQuoted v) (.DoubleQuoted w)

/-- The same for words. -/
inductive CRel (K : Core) : ComplexWordKind K.C → ComplexWordKind K.C → Prop
  | single {s t} : WRel K s t → CRel K (.Single s) (.Single t)
  | concat {v w} : List.Forall₂ (WRel K) v w → CRel K (.Concat v) (.Concat w)

theorem forall2_map {α β : Type} {R : α → α → Prop} {f : α → β} (h : ∀ a b, R a b → f a = f b) {l l' : List α}
    (hl : List.Forall₂ R l l') : l.map f = l'.map f := by
  induction hl with
  | nil => rfl
  | cons h1 _ ih => simp [h _ _ h1, ih]

theorem forall2_app {α β : Type} {R : α → β → Prop} {u v : List α} {u' v' : List β} (h : List.Forall₂ R u u')
    (h' : List.Forall₂ R v v') : List.Forall₂ R (u ++ v) (u' ++ v') := by
  induction h with
  | nil => exact h'
  | cons h _ ih => exact .cons h ih

/-- Merging related lists gives related lists. -/
theorem mergeFrom_rel {α : Type} {R : α → α → Prop} {f : α → α → CoalesceResult α}
    (hf : ∀ a b a' b', R a a' → R b b' → (∃ c c', f a b = .ok c ∧ f a' b' = .ok c' ∧ R c c') ∨
      (f a b = .error (a, b) ∧ f a' b' = .error (a', b'))) {x x' : α} {l l' : List α} (hx : R x x')
    (hl : List.Forall₂ R l l') : List.Forall₂ R (mergeFrom f x l) (mergeFrom f x' l') := by
  induction hl generalizing x x' with
  | nil => exact .cons hx .nil
  | cons h1 _ ih =>
    unfold mergeFrom
    rcases hf _ _ _ _ hx h1 with ⟨c, c', e1, e2, hc⟩ | ⟨e1, e2⟩
    · rw [e1, e2]; exact ih hc
    · rw [e1, e2]; exact .cons hx (ih h1)

theorem collect_rel {α : Type} {R : α → α → Prop} {f : α → α → CoalesceResult α}
    (hf : ∀ a b a' b', R a a' → R b b' → (∃ c c', f a b = .ok c ∧ f a' b' = .ok c' ∧ R c c') ∨
      (f a b = .error (a, b) ∧ f a' b' = .error (a', b'))) {l l' : List α}
    (hl : List.Forall₂ R l l') : List.Forall₂ R (Coalesce.collect f l) (Coalesce.collect f l') := by
  rw [Coalesce.collect_eq, Coalesce.collect_eq]
  cases hl with
  | nil => exact .nil
  | cons h1 h2 => exact mergeFrom_rel hf h1 h2

theorem coalesceSimple_rel (a b a' b' : SimpleWordKind K.C) (ha : SRel K a a') (hb : SRel K b b') :
    (∃ c c', coalesceSimple a b = .ok c ∧ coalesceSimple a' b' = .ok c' ∧ SRel K c c') ∨
      (coalesceSimple a b = .error (a, b) ∧ coalesceSimple a' b' = .error (a', b')) := by
  by_cases hl : (∃ x, a = .Literal x) ∧ ∃ y, b = .Literal y
  · obtain ⟨⟨x, rfl⟩, y, rfl⟩ := hl
    obtain ⟨x', rfl, h1⟩ : ∃ x', a' = .Literal x' ∧ Txt' x x' := by
      cases ha with
      | lit h => exact ⟨_, rfl, h⟩
      | same => exact ⟨_, rfl, .refl _⟩
    obtain ⟨y', rfl, h2⟩ : ∃ y', b' = .Literal y' ∧ Txt' y y' := by
      cases hb with
      | lit h => exact ⟨_, rfl, h⟩
      | same => exact ⟨_, rfl, .refl _⟩
    exact .inl ⟨_, _, rfl, rfl, .lit (h1.append h2)⟩
  · right
    have key : ∀ a b : SimpleWordKind K.C, ¬ ((∃ x, a = .Literal x) ∧ ∃ y, b = .Literal y) → coalesceSimple a b = .error (a, b) := by
      intro a b h
      cases a <;> first | rfl | (cases b <;> first | rfl | exact absurd ⟨⟨_, rfl⟩, _, rfl⟩ h)
    refine ⟨key _ _ hl, key _ _ ?_⟩
    rintro ⟨⟨x, rfl⟩, y, rfl⟩
    apply hl
    constructor
    · cases ha <;> exact ⟨_, rfl⟩
    · cases hb <;> exact ⟨_, rfl⟩

theorem coalesceWord_rel (a b a' b' : WordKind K.C) (ha : WRel K a a') (hb : WRel K b b') :
    (∃ c c', coalesceWord a b = .ok c ∧ coalesceWord a' b' = .ok c' ∧ WRel K c c') ∨
      (coalesceWord a b = .error (a, b) ∧ coalesceWord a' b' = .error (a', b')) := by
  cases ha with
  | simple h1 =>
    cases hb with
    | simple h2 =>
      rcases coalesceSimple_rel _ _ _ _ h1 h2 with ⟨c, c', e1, e2, h⟩ | ⟨e1, e2⟩
      · exact .inl ⟨_, _, by simp only [coalesceWord, e1], by simp only [coalesceWord, e2], .simple h⟩
      · exact .inr ⟨by simp only [coalesceWord, e1], by simp only [coalesceWord, e2]⟩
    | single => exact .inr ⟨rfl, rfl⟩
    | double => exact .inr ⟨rfl, rfl⟩
  | single h1 =>
    cases hb with
    | simple h2 => exact .inr ⟨rfl, rfl⟩
    | single h2 => exact .inl ⟨_, _, rfl, rfl, .single (h1.append h2)⟩
    | double => exact .inr ⟨rfl, rfl⟩
  | double h1 =>
    cases hb with
    | simple h2 => exact .inr ⟨rfl, rfl⟩
    | single h2 => exact .inr ⟨rfl, rfl⟩
    | double h2 => exact .inl ⟨_, _, rfl, rfl, .double (collect_rel coalesceSimple_rel (forall2_app h1 h2))⟩

section
variable (hK : ∀ x y, K.ofString x = K.ofString y)
include hK

theorem SRel.eq {s t : SimpleWordKind K.C} (h : SRel K s t) : K.simpleOf s = K.simpleOf t := by
  cases h with
  | lit => exact congrArg SimpleWord.Literal (hK _ _)
  | esc => exact congrArg SimpleWord.Escaped (hK _ _)
  | param h => exact congrArg SimpleWord.Param h
  | cmd h => exact congrArg (fun x => SimpleWord.Subst (ParameterSubstitution.Command x)) h
  | subst h => exact congrArg SimpleWord.Subst h
  | same => rfl

theorem WRel.eq {s t : WordKind K.C} (h : WRel K s t) : K.partOf s = K.partOf t := by
  cases h with
  | simple h => exact congrArg Word.Simple (h.eq hK)
  | single h => exact congrArg Word.SingleQuoted (hK _ _)
  | double h => exact congrArg Word.DoubleQuoted (forall2_map (fun _ _ h => h.eq hK) h)

theorem CRel.eq {s t : ComplexWordKind K.C} (h : CRel K s t) : K.word s = K.word t := by
  rw [C32_default_builder_compresses, C32_default_builder_compresses]
  congr 1
  have hc : CRel K (compress s) (compress t) := by
    cases h with
    | single h =>
      cases h with
      | simple h => exact .single (.simple h)
      | single h => exact .single (.single h)
      | double h => exact .single (.double (collect_rel coalesceSimple_rel h))
    | concat h =>
      have := collect_rel coalesceWord_rel h
      simp only [compress]
      generalize Coalesce.collect coalesceWord _ = v1 at this ⊢
      generalize Coalesce.collect coalesceWord _ = v2 at this ⊢
      cases this with
      | nil => exact .concat .nil
      | cons h1 h2 =>
        cases h2 with
        | nil => exact .single h1
        | cons h2 h3 => exact .concat (.cons h1 (.cons h2 h3))
  generalize compress s = s' at hc ⊢
  generalize compress t = t' at hc ⊢
  cases hc with
  | single h => exact congrArg ComplexWord.Single (h.eq hK)
  | concat h => exact congrArg ComplexWord.Concat (forall2_map (fun _ _ h => h.eq hK) h)

end

/-! ## Numbers -/

theorem SRel.symm {s t : SimpleWordKind K.C} (h : SRel K s t) : SRel K t s := by
  have ht : ∀ {x y}, Txt' x y → Txt' y x := fun h => h.imp Eq.symm And.symm
  cases h with
  | lit h => exact .lit (ht h)
  | esc h => exact .esc (ht h)
  | param h => exact .param h.symm
  | cmd h => exact .cmd h.symm
  | subst h => exact .subst h.symm
  | same => exact .same

theorem SRel.numeric {s t : SimpleWordKind K.C} (h : SRel K s t) (hs : NumericSimple s) : NumericSimple t := by
  cases h with
  | lit h => cases hs with | literal h1 => exact .literal (h.digits h1)
  | esc h => cases hs with | escaped h1 => exact .escaped (h.digits h1)
  | param h => exact .param
  | cmd h => exact .command
  | subst h => exact .subst
  | same => exact hs

theorem forall2_all {α : Type} {R : α → α → Prop} {p : α → Prop} (h : ∀ a b, R a b → p a → p b) {l l' : List α}
    (hl : List.Forall₂ R l l') (hp : ∀ x ∈ l, p x) : ∀ x ∈ l', p x := by
  induction hl with
  | nil => exact hp
  | cons h1 _ ih =>
    intro x hx
    rcases List.mem_cons.1 hx with rfl | hx
    · exact h _ _ h1 (hp _ (by simp))
    · exact ih (fun y hy => hp y (by simp [hy])) x hx

theorem WRel.numeric {s t : WordKind K.C} (h : WRel K s t) (hs : NumericPart s) : NumericPart t := by
  cases h with
  | simple h => cases hs with | simple h1 => exact .simple (h.numeric h1)
  | single h => cases hs with | single h1 => exact .single (h.digits h1)
  | double h => cases hs with | double h1 => exact .double (forall2_all (fun _ _ h => h.numeric) h h1)

theorem CRel.numeric {s t : ComplexWordKind K.C} (h : CRel K s t) (hs : NumericWord s) : NumericWord t := by
  cases h with
  | single h => cases hs with | single h1 => exact .single (h.numeric h1)
  | concat h => cases hs with | concat h1 => exact .concat (forall2_all (fun _ _ h => h.numeric) h h1)

theorem SRel.literal {x : Str} {t : SimpleWordKind K.C} (h : SRel K (.Literal x) t) : ∃ y, t = .Literal y ∧ Txt' x y := by
  cases h with
  | lit h => exact ⟨_, rfl, h⟩
  | same => exact ⟨_, rfl, .refl _⟩

theorem CRel.literalWord {s t : ComplexWordKind K.C} (h : CRel K s t) {x : Str} (hs : LiteralWord s x) :
    ∃ y, LiteralWord t y ∧ Txt' x y := by
  cases hs with
  | single =>
    cases h with
    | single h =>
      cases h with
      | simple h =>
        obtain ⟨y, rfl, h1⟩ := h.literal
        exact ⟨y, .single, h1⟩
  | @concat ss =>
    cases h with
    | @concat _ w h =>
      obtain ⟨ys, rfl, h1⟩ : ∃ ys : List Str, w = ys.map (fun s => .Simple (.Literal s)) ∧ Txt' ss.flatten ys.flatten := by
        induction ss generalizing w with
        | nil => cases h; exact ⟨[], rfl, .refl _⟩
        | cons x ss ih =>
          cases h with
          | cons h1 h2 =>
            obtain ⟨ys, rfl, h3⟩ := ih h2
            cases h1 with
            | simple h1 =>
              obtain ⟨y, rfl, h4⟩ := h1.literal
              exact ⟨y :: ys, rfl, by simpa using h4.append h3⟩
      exact ⟨_, .concat, h1⟩

theorem CRel.fd {s t : ComplexWordKind K.C} (h : CRel K s t) {n : Nat} (hs : FdWord s n) : FdWord t n := by
  obtain ⟨x, h1, h2, h3, h4⟩ := hs
  obtain ⟨y, h5, h6⟩ := h.literalWord h1
  rcases h6 with rfl | ⟨h6, -⟩
  · exact ⟨x, h5, h2, h3, h4⟩
  · exact absurd h6 (signed_not_odd h2)

theorem CRel.symm {s t : ComplexWordKind K.C} (h : CRel K s t) : CRel K t s := by
  have hf : ∀ {α : Type} {R : α → α → Prop} (_ : ∀ a b, R a b → R b a) {l l' : List α}, List.Forall₂ R l l' → List.Forall₂ R l' l := by
    intro α R hR l l' h
    induction h with
    | nil => exact .nil
    | cons h _ ih => exact .cons (hR _ _ h) ih
  have hw : ∀ s t, WRel K s t → WRel K t s := by
    intro s t h
    cases h with
    | simple h => exact .simple h.symm
    | single h => exact .single (h.imp Eq.symm And.symm)
    | double h => exact .double (hf (fun _ _ h => h.symm) h)
  cases h with
  | single h => exact .single (hw _ _ h)
  | concat h => exact .concat (hf hw h)

/-- Related or both missing. -/
inductive ORel {α : Type} (R : α → α → Prop) : Option α → Option α → Prop
  | none : ORel R none none
  | some {a b} : R a b → ORel R (some a) (some b)

theorem wordOf_rel {v w : List (WordKind K.C)} (h : List.Forall₂ (WRel K) v w) : ORel (CRel K) (wordOf v) (wordOf w) := by
  cases h with
  | nil => exact .none
  | cons h1 h2 =>
    cases h2 with
    | nil => exact .some (.single h1)
    | cons h2 h3 => exact .some (.concat (.cons h1 (.cons h2 h3)))

theorem textOf_rel {x y : Str} (h : Txt' x y) : List.Forall₂ (SRel K) (textOf x) (textOf y) := by
  unfold textOf
  by_cases hx : x = []
  · rw [if_pos hx, if_pos (h.empty.1 hx)]; exact .nil
  · rw [if_neg hx, if_neg (fun e => hx (h.empty.2 e))]; exact .cons (.lit h) .nil

/-- Text or something else. -/
inductive IRel (K : Core) : Str ⊕ SimpleWordKind K.C → Str ⊕ SimpleWordKind K.C → Prop
  | text {x y} : Txt' x y → IRel K (.inl x) (.inl y)
  | part {s t} : SRel K s t → IRel K (.inr s) (.inr t)

theorem gather_rel {v w : List (Str ⊕ SimpleWordKind K.C)} (h : List.Forall₂ (IRel K) v w) {x y : Str} (hx : Txt' x y) :
    List.Forall₂ (SRel K) (gather x v) (gather y w) := by
  induction h generalizing x y with
  | nil => exact textOf_rel hx
  | cons h1 _ ih =>
    cases h1 with
    | text h => exact ih (hx.append h)
    | part h => exact forall2_app (textOf_rel hx) (.cons h (ih (.refl _)))

end

/-! ## Regions and backslashes -/

/-- Positions do not matter. -/
inductive PAl : List Spec.PTok → List Spec.PTok → Prop
  | nil : PAl [] []
  | cons {p p' t t' l l'} : Alike t t' → PAl l l' → PAl ((p, t) :: l) ((p', t') :: l')

theorem PAl.append {u v l : List Spec.PTok} (h : PAl (u ++ v) l) : ∃ u' v', l = u' ++ v' ∧ PAl u u' ∧ PAl v v' := by
  induction u generalizing l with
  | nil => exact ⟨[], l, rfl, .nil, h⟩
  | cons x u ih =>
    cases h with
    | cons h1 h2 =>
      obtain ⟨u', v', rfl, h3, h4⟩ := ih h2
      exact ⟨_ :: u', v', rfl, .cons h1 h3, h4⟩

theorem Al.anywhere {l l' : List Token} (h : Al l l') : PAl (Gram.anywhere l) (Gram.anywhere l') := by
  induction h with
  | nil => exact .nil
  | cons h _ ih => exact .cons h ih

theorem PAl.toks {l l' : List Spec.PTok} (h : PAl l l') : Al (l.map (·.2)) (l'.map (·.2)) := by
  induction h with
  | nil => exact .nil
  | cons h _ ih => exact .cons h ih

theorem opens_lone {c t c'} (h : Spec.Opens c t c') : Lone t ∧ Lone c' := by cases h <;> exact ⟨by lone, by lone⟩

theorem Spec.Alike.ordinary {c : Option Token} {t t' : Token} (h : Alike t t') (ho : Spec.Ordinary c t) : Spec.Ordinary c t' := by
  obtain ⟨h1, h2, h3⟩ := ho
  have hb : Lone .Backslash := by lone
  have hd : Lone .Dollar := by lone
  refine ⟨?_, ?_, fun c' h4 => ?_⟩
  · rintro rfl; exact h1 (hb.eq' h)
  · rintro rfl; exact h2 (hd.eq' h)
  · rw [(opens_lone h4).1.eq' h] at h3; exact h3 _ h4

theorem PAl.body {c : Token} (hc : Lone c) {l l' : List Spec.PTok} (hb : Spec.Body c l) (h : PAl l l') : Spec.Body c l' := by
  have hsq : Lone .SingleQuote := by lone
  have hbs : Lone .Backslash := by lone
  have hdl : Lone .Dollar := by lone
  have hco : Lone .CurlyOpen := by lone
  have hcc : Lone .CurlyClose := by lone
  induction hb generalizing l' with
  | nil => cases h; exact .nil
  | quoted h1 _ ih =>
    cases h with
    | cons h2 h3 => exact .quoted (fun e => h1 (by simp only at e; rw [e] at h2; exact hsq.eq' h2)) (ih hsq h3)
  | plain h1 h2 h3 _ ih =>
    cases h with
    | cons h4 h5 => exact .plain h1 (fun e => h2 (by simp only at e; rw [e] at h4; exact hc.eq' h4)) (h4.ordinary h3) (ih hc h5)
  | escape h1 _ ih =>
    obtain _ | ⟨h2, _ | ⟨h3, h4⟩⟩ := h
    obtain rfl := hbs.eq h2
    exact .escape h1 (ih hc h4)
  | nested h1 h2 h3 _ _ ih1 ih2 =>
    obtain _ | ⟨h4, h5⟩ := h
    obtain ⟨u, v, rfl, h6, h7⟩ := h5.append
    obtain _ | ⟨h8, h9⟩ := h7
    obtain ⟨h10, h11⟩ := opens_lone h3
    obtain rfl := h11.eq h8
    obtain rfl := h10.eq h4
    exact .nested h1 h2 h3 (ih1 h11 h6) (ih2 hc h9)
  | brace h1 _ _ ih1 ih2 =>
    obtain _ | ⟨h2, _ | ⟨h3, h4⟩⟩ := h
    obtain ⟨u, v, rfl, h6, h7⟩ := h4.append
    obtain _ | ⟨h8, h9⟩ := h7
    obtain rfl := hdl.eq h2
    obtain rfl := hco.eq h3
    obtain rfl := hcc.eq h8
    exact .brace h1 (ih1 hcc h6) (ih2 hc h9)
  | dollar h1 h2 _ ih =>
    obtain _ | ⟨h3, h4⟩ := h
    obtain rfl := hdl.eq h3
    refine .dollar h1 (fun e => h2 ?_) (ih hc h4)
    cases h4 with
    | nil => simp at e
    | cons h5 h6 =>
      simp at e ⊢
      rw [e] at h5
      exact hco.eq' h5

theorem Al.body {c : Token} (hc : Lone c) {l l' : List Token} (hb : Spec.Body c (Gram.anywhere l)) (h : Al l l') :
    Spec.Body c (Gram.anywhere l') := h.anywhere.body hc hb

theorem PAl.unescape : ∀ {l l' : List Spec.PTok}, PAl l l' → PAl (Spec.unescape l) (Spec.unescape l')
  | [], _, h => by cases h; exact .nil
  | [x], _, h => by
    obtain _ | ⟨h1, _ | _⟩ := h
    exact .cons h1 .nil
  | (p, x) :: (p2, y) :: r, _, h => by
    have hbs : Lone .Backslash := by lone
    have hdl : Lone .Dollar := by lone
    have hbt : Lone .Backtick := by lone
    obtain _ | @⟨_, p', _, x', _, _, h1, _ | @⟨_, p2', _, y', _, r', h2, h3⟩⟩ := h
    have e1 : x = .Backslash ↔ x' = .Backslash := ⟨fun e => by rw [e] at h1; exact hbs.eq h1, fun e => by rw [e] at h1; exact hbs.eq' h1⟩
    have e2 : (y = .Backslash ∨ y = .Dollar ∨ y = .Backtick) ↔ (y' = .Backslash ∨ y' = .Dollar ∨ y' = .Backtick) := by
      constructor
      · rintro (e | e | e) <;> rw [e] at h2
        · exact .inl (hbs.eq h2)
        · exact .inr (.inl (hdl.eq h2))
        · exact .inr (.inr (hbt.eq h2))
      · rintro (e | e | e) <;> rw [e] at h2
        · exact .inl (hbs.eq' h2)
        · exact .inr (.inl (hdl.eq' h2))
        · exact .inr (.inr (hbt.eq' h2))
    simp only [Spec.unescape]
    by_cases hx : x = .Backslash
    · rw [if_pos hx, if_pos (e1.1 hx)]
      by_cases hy : y = .Backslash ∨ y = .Dollar ∨ y = .Backtick
      · rw [if_pos hy, if_pos (e2.1 hy)]; exact .cons h2 h3.unescape
      · rw [if_neg hy, if_neg (fun h => hy (e2.2 h))]; exact .cons h1 (.cons h2 h3.unescape)
    · rw [if_neg hx, if_neg (fun h => hx (e1.2 h))]
      exact .cons h1 (PAl.unescape (.cons h2 h3))

theorem Al.unescape {l l' : List Token} (h : Al l l') : Al (Gram.unescape l) (Gram.unescape l') := h.anywhere.unescape.toks

end Conch
