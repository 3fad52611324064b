import Verif.AlikeKind
/-!
# C56: arithmetic expressions that differ only in their variables
-/
namespace Conch
open Spec
open Gram (anywhere)

theorem PAl.blanks {l l' : List PTok} (hb : Spec.Blanks l) (h : PAl l l') : Spec.Blanks l' := by
  induction hb generalizing l' with
  | nil => cases h; exact .nil
  | ws _ ih =>
    cases h with
    | cons h1 h2 => obtain ⟨_, rfl⟩ := h1.is_ws; exact .ws (ih h2)
  | escaped _ ih =>
    obtain _ | ⟨⟨⟩, _ | ⟨⟨⟩, h⟩⟩ := h
    exact .escaped (ih h)

theorem PAl.varRef {l l' : List PTok} {x : Str} (hb : VarRef l x) (h : PAl l l') : ∃ y, VarRef l' y := by
  cases hb with
  | name =>
    obtain _ | ⟨h1, _ | _⟩ := h
    obtain ⟨_, rfl⟩ := h1.is_name
    exact ⟨_, .name⟩
  | dollar =>
    obtain _ | ⟨⟨⟩, _ | ⟨h1, _ | _⟩⟩ := h
    obtain ⟨_, rfl⟩ := h1.is_name
    exact ⟨_, .dollar⟩

theorem PAl.ws {l l' : List PTok} (h : PAl l l') (hb : ∀ t ∈ l, ∃ w, t.2 = .Whitespace w) : ∀ t ∈ l', ∃ w, t.2 = .Whitespace w := by
  induction h with
  | nil => exact hb
  | cons h1 _ ih =>
    intro t ht
    rcases List.mem_cons.1 ht with rfl | ht
    · obtain ⟨w, e⟩ := hb _ (List.mem_cons_self ..)
      simp only at e
      rw [e] at h1
      exact h1.is_ws
    · exact ih (fun t ht => hb t (by simp [ht])) t ht

theorem PAl.noSign {l l' : List PTok} (h : PAl l l') (hl : NoSign l) : NoSign l' := by
  intro p r
  constructor
  · rintro rfl
    cases h with
    | cons h1 h2 => cases h1; exact (hl _ _).1 rfl
  · rintro rfl
    cases h with
    | cons h1 h2 => cases h1; exact (hl _ _).2 rfl

theorem PAl.symm {l l' : List PTok} (h : PAl l l') : PAl l' l := by
  induction h with
  | nil => exact .nil
  | cons h _ ih => exact .cons h.symm ih

/-- Fixed operators stay. -/
theorem PAl.lone {l l' : List PTok} (h : PAl l l') (hl : ∀ t ∈ l, Lone t.2) : l'.map (·.2) = l.map (·.2) := by
  induction h with
  | nil => rfl
  | cons h1 _ ih =>
    have := (hl _ (List.mem_cons_self ..) : Lone _).eq h1
    simp only [List.map_cons]
    rw [ih fun t ht => hl t (by simp [ht])]
    simp [this]

section
variable {T : Type} {f : Str → T}

/-- `lastVar` for trees over any type of strings. -/
def lastVarT : Arithmetic T → Prop
  | .Var _ => True
  | .UnaryPlus a | .UnaryMinus a | .LogicalNot a | .BitwiseNot a | .Assign _ a => lastVarT a
  | .Pow _ b | .Mult _ b | .Div _ b | .Modulo _ b | .Add _ b | .Sub _ b | .ShiftLeft _ b
  | .ShiftRight _ b | .Less _ b | .LessEq _ b | .Great _ b | .GreatEq _ b | .Eq _ b | .NotEq _ b
  | .BitwiseAnd _ b | .BitwiseXor _ b | .BitwiseOr _ b | .LogicalAnd _ b | .LogicalOr _ b
  | .Ternary _ _ b => lastVarT b
  | .Literal _ | .PostIncr _ | .PostDecr _ | .PreIncr _ | .PreDecr _ | .Sequence _ => False

theorem lastVar_map : ∀ a : DefaultArithmetic, lastVar a ↔ lastVarT (mapArith f a)
  | .Var _ => by simp [lastVar, lastVarT, mapArith]
  | .Literal _ | .PostIncr _ | .PostDecr _ | .PreIncr _ | .PreDecr _ | .Sequence _ => by simp [lastVar, lastVarT, mapArith]
  | .UnaryPlus a | .UnaryMinus a | .LogicalNot a | .BitwiseNot a | .Assign _ a => by
    simp only [lastVar, lastVarT, mapArith]; exact lastVar_map a
  | .Pow _ b | .Mult _ b | .Div _ b | .Modulo _ b | .Add _ b | .Sub _ b | .ShiftLeft _ b
  | .ShiftRight _ b | .Less _ b | .LessEq _ b | .Great _ b | .GreatEq _ b | .Eq _ b | .NotEq _ b
  | .BitwiseAnd _ b | .BitwiseXor _ b | .BitwiseOr _ b | .LogicalAnd _ b | .LogicalOr _ b
  | .Ternary _ _ b => by
    simp only [lastVar, lastVarT, mapArith]; exact lastVar_map b

theorem endsVar_rel {u u' : List PTok} {a a' : DefaultArithmetic} (h : PAl u u') (ha : mapArith f a = mapArith f a')
    (he : EndsVar u' a') : EndsVar u a := by
  obtain ⟨⟨v, p, x, rfl⟩, h1⟩ := he
  constructor
  · obtain ⟨v', w, rfl, h2, h3⟩ := h.symm.append
    obtain _ | ⟨h3, _ | _⟩ := h3
    obtain ⟨_, rfl⟩ := h3.is_name
    exact ⟨_, _, _, rfl⟩
  · rw [lastVar_map (f := f), ha, ← lastVar_map]; exact h1

theorem binOps_map {lvl : Level} {op : List Token} {mk : BinMk} (h : (op, mk) ∈ binOps lvl) {a a' b b' : DefaultArithmetic}
    (ha : mapArith f a = mapArith f a') (hb : mapArith f b = mapArith f b') : mapArith f (mk a b) = mapArith f (mk a' b') := by
  cases lvl <;> simp only [binOps, List.mem_cons, List.not_mem_nil, or_false, Prod.mk.injEq] at h
  all_goals first
    | exact h.elim
    | (rcases h with ⟨-, rfl⟩ | ⟨-, rfl⟩ | ⟨-, rfl⟩ | ⟨-, rfl⟩ <;> simp only [mapArith, ha, hb])
    | (rcases h with ⟨-, rfl⟩ | ⟨-, rfl⟩ | ⟨-, rfl⟩ <;> simp only [mapArith, ha, hb])
    | (rcases h with ⟨-, rfl⟩ | ⟨-, rfl⟩ <;> simp only [mapArith, ha, hb])
    | (rcases h with ⟨-, rfl⟩; simp only [mapArith, ha, hb])

theorem binOps_lone {lvl : Level} {op : List Token} {mk : BinMk} (h : (op, mk) ∈ binOps lvl) : ∀ t ∈ op, Lone t := by
  cases lvl <;> simp only [binOps, List.mem_cons, List.not_mem_nil, or_false, Prod.mk.injEq] at h
  all_goals first
    | exact h.elim
    | (rcases h with ⟨rfl, -⟩ | ⟨rfl, -⟩ | ⟨rfl, -⟩ | ⟨rfl, -⟩ <;> simp <;> (try constructor) <;> lone)
    | (rcases h with ⟨rfl, -⟩ | ⟨rfl, -⟩ | ⟨rfl, -⟩ <;> simp <;> (try constructor) <;> lone)
    | (rcases h with ⟨rfl, -⟩ | ⟨rfl, -⟩ <;> simp <;> (try constructor) <;> lone)
    | (rcases h with ⟨rfl, -⟩; simp <;> (try constructor) <;> lone)

theorem compoundOps_map {op : Token} {mk : BinMk} (h : (op, mk) ∈ compoundOps) :
    Lone op ∧ ∀ {a a' b b' : DefaultArithmetic}, mapArith f a = mapArith f a' → mapArith f b = mapArith f b' →
      mapArith f (mk a b) = mapArith f (mk a' b') := by
  simp only [compoundOps, List.mem_cons, List.not_mem_nil, or_false, Prod.mk.injEq] at h
  rcases h with h | h | h | h | h | h | h | h | h | h <;> obtain ⟨rfl, rfl⟩ := h
  all_goals exact ⟨by lone, fun ha hb => by simp only [mapArith, ha, hb]⟩

theorem mapAriths_eq' (as : List DefaultArithmetic) : mapAriths f as = as.map (mapArith f) := by
  induction as with
  | nil => rfl
  | cons a as ih => simp [mapAriths, ih]

variable (hf : ∀ x y, f x = f y)
include hf

theorem expr_rel :
    (∀ {lvl u a}, Expr .munch lvl u a → ∀ u', PAl u u' → ∃ a', Expr .munch lvl u' a' ∧ mapArith f a = mapArith f a') := by
  intro lvl u a h
  induction h using Expr.rec (motive_2 := fun u as _ => ∀ u', PAl u u' → ∃ as', Items .munch u' as' ∧ as.map (mapArith f) = as'.map (mapArith f)) with
  | tighter h1 _ ih =>
    intro u' e
    obtain ⟨a', h2, h3⟩ := ih _ e
    exact ⟨a', .tighter h1 h2, h3⟩
  | seq _ h1 ih =>
    intro u' e
    obtain ⟨as', h2, h3⟩ := ih _ e
    have hl := congrArg List.length h3
    simp at hl
    exact ⟨_, .seq h2 (by omega), by simp only [mapArith, mapAriths_eq', h3]⟩
  | assign h1 h2 h3 _ ih =>
    intro u' e
    obtain ⟨y11, y12, rfl, e1', e2⟩ := e.append
    obtain _ | ⟨⟨⟩, e2⟩ := e2
    obtain ⟨y21, y22, rfl, e1'', e3⟩ := e1'.append
    obtain ⟨y31, y32, rfl, e1''', e4⟩ := e1''.append
    obtain ⟨y, k1⟩ := e4.varRef h2
    obtain ⟨a', k2, k3⟩ := ih _ e2
    exact ⟨_, .assign (e1'''.blanks h1) k1 (e3.ws h3) k2, by simp only [mapArith, k3]; rw [hf]⟩
  | compound h1 h2 h3 h4 _ ih =>
    intro u' e
    obtain ⟨y11, y12, rfl, e1', e2⟩ := e.append
    obtain _ | ⟨k5, _ | ⟨⟨⟩, e2⟩⟩ := e2
    obtain ⟨y21, y22, rfl, e1'', e3⟩ := e1'.append
    obtain ⟨y31, y32, rfl, e1''', e4⟩ := e1''.append
    obtain ⟨y, k1⟩ := e4.varRef h2
    obtain ⟨a', k2, k3⟩ := ih _ e2
    obtain ⟨k6, k7⟩ := compoundOps_map (f := f) h4
    rw [k6.eq k5]
    refine ⟨_, .compound (e1'''.blanks h1) k1 (e3.ws h3) h4 k2, ?_⟩
    simp only [mapArith]
    rw [hf _ y, k7 (a' := .Var y) _ k3]
    simp only [mapArith]; rw [hf]
  | ternary _ h1 _ h2 _ ih1 ih2 ih3 =>
    intro u' e
    obtain ⟨y11, y12, rfl, e1', e2⟩ := e.append
    obtain _ | ⟨⟨⟩, e2⟩ := e2
    obtain ⟨y21, y22, rfl, e1'', e3⟩ := e1'.append
    obtain ⟨y31, y32, rfl, e1''', e4⟩ := e1''.append
    obtain _ | ⟨⟨⟩, e4⟩ := e4
    obtain ⟨y41, y42, rfl, e1'''', e5⟩ := e1'''.append
    obtain ⟨a1, k1, k2⟩ := ih1 _ e1''''
    obtain ⟨a2, k3, k4⟩ := ih2 _ e4
    obtain ⟨a3, k5, k6⟩ := ih3 _ e2
    exact ⟨_, .ternary k1 (e5.blanks h1) k3 (e3.blanks h2) k5, by simp only [mapArith, k2, k4, k6]⟩
  | bin h1 _ h2 _ h3 ih1 ih2 =>
    intro u' e
    obtain ⟨y11, y12, rfl, e1', e2⟩ := e.append
    obtain ⟨y21, y22, rfl, e1'', e3⟩ := e1'.append
    obtain ⟨y31, y32, rfl, e1''', e4⟩ := e1''.append
    obtain ⟨a1, k1, k2⟩ := ih1 _ e1'''
    obtain ⟨a2, k3, k4⟩ := ih2 _ e2
    have k5 := e3.lone fun t ht => binOps_lone h1 _ (List.mem_map_of_mem ht)
    refine ⟨_, .bin (by rw [k5]; exact h1) k1 (e4.blanks h2) k3 fun el => ?_, binOps_map h1 k2 k4⟩
    intro he x hx p r hr
    have h4 := h3 el (endsVar_rel e1''' k2 he)
    obtain ⟨y, hy, hyx⟩ : ∃ y : PTok, y ∈ _ ∧ y.2 = x.2 := by
      have : x.2 ∈ y22.map (·.2) := List.mem_map_of_mem hx
      rw [k5] at this
      exact List.mem_map.1 this
    subst hr
    cases e2 with
    | cons e5 e6 =>
      rw [← hyx] at e5
      have := (binOps_lone h1 _ (List.mem_map_of_mem hy)).eq' e5
      subst this
      exact h4 y hy _ _ rfl
  | pow _ h1 _ ih1 ih2 =>
    intro u' e
    obtain ⟨y11, y12, rfl, e1', e2⟩ := e.append
    obtain _ | ⟨⟨⟩, _ | ⟨⟨⟩, e2⟩⟩ := e2
    obtain ⟨y21, y22, rfl, e1'', e3⟩ := e1'.append
    obtain ⟨a1, k1, k2⟩ := ih1 _ e1''
    obtain ⟨a2, k3, k4⟩ := ih2 _ e2
    exact ⟨_, .pow k1 (e3.blanks h1) k3, by simp only [mapArith, k2, k4]⟩
  | not h1 _ ih =>
    intro u' e
    obtain ⟨y11, y12, rfl, e1', e2⟩ := e.append
    obtain _ | ⟨⟨⟩, e2⟩ := e2
    obtain ⟨a1, k1, k2⟩ := ih _ e2
    exact ⟨_, .not (e1'.blanks h1) k1, by simp only [mapArith, k2]⟩
  | bitNot h1 _ ih =>
    intro u' e
    obtain ⟨y11, y12, rfl, e1', e2⟩ := e.append
    obtain _ | ⟨⟨⟩, e2⟩ := e2
    obtain ⟨a1, k1, k2⟩ := ih _ e2
    exact ⟨_, .bitNot (e1'.blanks h1) k1, by simp only [mapArith, k2]⟩
  | plus h1 _ h2 ih =>
    intro u' e
    obtain ⟨y11, y12, rfl, e1', e2⟩ := e.append
    obtain _ | ⟨⟨⟩, e2⟩ := e2
    obtain ⟨a1, k1, k2⟩ := ih _ e2
    exact ⟨_, .plus (e1'.blanks h1) k1 (e2.noSign h2), by simp only [mapArith, k2]⟩
  | minus h1 _ h2 ih =>
    intro u' e
    obtain ⟨y11, y12, rfl, e1', e2⟩ := e.append
    obtain _ | ⟨⟨⟩, e2⟩ := e2
    obtain ⟨a1, k1, k2⟩ := ih _ e2
    exact ⟨_, .minus (e1'.blanks h1) k1 (e2.noSign h2), by simp only [mapArith, k2]⟩
  | plusMinus h1 _ ih =>
    intro u' e
    obtain ⟨y11, y12, rfl, e1', e2⟩ := e.append
    obtain _ | ⟨⟨⟩, _ | ⟨⟨⟩, e2⟩⟩ := e2
    obtain ⟨a1, k1, k2⟩ := ih _ e2
    exact ⟨_, .plusMinus (e1'.blanks h1) k1, by simp only [mapArith, k2]⟩
  | minusPlus h1 _ ih =>
    intro u' e
    obtain ⟨y11, y12, rfl, e1', e2⟩ := e.append
    obtain _ | ⟨⟨⟩, _ | ⟨⟨⟩, e2⟩⟩ := e2
    obtain ⟨a1, k1, k2⟩ := ih _ e2
    exact ⟨_, .minusPlus (e1'.blanks h1) k1, by simp only [mapArith, k2]⟩
  | preIncr h1 h2 h3 =>
    intro u' e
    obtain ⟨y11, y12, rfl, e1', e2⟩ := e.append
    obtain ⟨y21, y22, rfl, e1'', e3⟩ := e1'.append
    obtain _ | ⟨⟨⟩, _ | ⟨⟨⟩, e3⟩⟩ := e3
    obtain ⟨y, k1⟩ := e2.varRef h3
    exact ⟨_, .preIncr (e1''.blanks h1) (e3.blanks h2) k1, by simp only [mapArith]; rw [hf]⟩
  | preDecr h1 h2 h3 =>
    intro u' e
    obtain ⟨y11, y12, rfl, e1', e2⟩ := e.append
    obtain ⟨y21, y22, rfl, e1'', e3⟩ := e1'.append
    obtain _ | ⟨⟨⟩, _ | ⟨⟨⟩, e3⟩⟩ := e3
    obtain ⟨y, k1⟩ := e2.varRef h3
    exact ⟨_, .preDecr (e1''.blanks h1) (e3.blanks h2) k1, by simp only [mapArith]; rw [hf]⟩
  | postIncr h1 h2 h3 =>
    intro u' e
    obtain ⟨y11, y12, rfl, e1', e2⟩ := e.append
    obtain _ | ⟨⟨⟩, _ | ⟨⟨⟩, _ | _⟩⟩ := e2
    obtain ⟨y21, y22, rfl, e1'', e3⟩ := e1'.append
    obtain ⟨y31, y32, rfl, e1''', e4⟩ := e1''.append
    obtain ⟨y, k1⟩ := e4.varRef h2
    exact ⟨_, .postIncr (e1'''.blanks h1) k1 (e3.blanks h3), by simp only [mapArith]; rw [hf]⟩
  | postDecr h1 h2 h3 =>
    intro u' e
    obtain ⟨y11, y12, rfl, e1', e2⟩ := e.append
    obtain _ | ⟨⟨⟩, _ | ⟨⟨⟩, _ | _⟩⟩ := e2
    obtain ⟨y21, y22, rfl, e1'', e3⟩ := e1'.append
    obtain ⟨y31, y32, rfl, e1''', e4⟩ := e1''.append
    obtain ⟨y, k1⟩ := e4.varRef h2
    exact ⟨_, .postDecr (e1'''.blanks h1) k1 (e3.blanks h3), by simp only [mapArith]; rw [hf]⟩
  | var h1 h2 =>
    intro u' e
    obtain ⟨y11, y12, rfl, e1', e2⟩ := e.append
    obtain ⟨y, k1⟩ := e2.varRef h2
    exact ⟨_, .var (e1'.blanks h1) k1, by simp only [mapArith]; rw [hf]⟩
  | literal h1 h2 h3 =>
    intro u' e
    obtain ⟨y11, y12, rfl, e1', e2⟩ := e.append
    obtain _ | ⟨k1, _ | _⟩ := e2
    cases k1 with
    | same => exact ⟨_, .literal (e1'.blanks h1) h2 h3, rfl⟩
    | text _ _ k2 =>
      obtain ⟨c, k3, k4⟩ := k2
      exact absurd (numeral_hex h2 k3) k4
  | paren h1 _ h2 ih =>
    intro u' e
    obtain ⟨y11, y12, rfl, e1', e2⟩ := e.append
    obtain _ | ⟨⟨⟩, _ | _⟩ := e2
    obtain ⟨y21, y22, rfl, e1'', e2⟩ := e1'.append
    obtain ⟨y31, y32, rfl, e1''', e3⟩ := e1''.append
    obtain _ | ⟨⟨⟩, e3⟩ := e3
    obtain ⟨a1, k1, k2⟩ := ih _ e3
    exact ⟨_, .paren (e1'''.blanks h1) k1 (e2.blanks h2), k2⟩
  | one _ ih =>
    rename_i u' e
    obtain ⟨a1, k1, k2⟩ := ih _ e
    exact ⟨_, .one k1, by simp [k2]⟩
  | cons _ h1 _ ih1 ih2 =>
    rename_i u' e
    obtain ⟨y11, y12, rfl, e1', e2⟩ := e.append
    obtain _ | ⟨⟨⟩, e2⟩ := e2
    obtain ⟨y21, y22, rfl, e1'', e3⟩ := e1'.append
    obtain ⟨a1, k1, k2⟩ := ih1 _ e1''
    obtain ⟨a2, k3, k4⟩ := ih2 _ e2
    exact ⟨_, .cons k1 (e3.blanks h1) k3, by simp [k2, k4]⟩

end
end Conch
