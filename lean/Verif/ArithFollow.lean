import Verif.NumProofs
import Verif.ExactLex
import Verif.PropsBlank
/-!
# What may follow an arithmetic expression, and how one starts and ends
-/
namespace Conch
open Spec

theorem blanks_append {x y : List PTok} (hx : Blanks x) (hy : Blanks y) : Blanks (x ++ y) := by
  induction hx with
  | nil => exact hy
  | ws _ ih => exact .ws ih
  | escaped _ ih => exact .escaped ih

/-! ## What may follow an expression -/

/-- The position of a level in the order of tightness. -/
def lrank : Level → Nat
  | .seq => 0 | .assign => 1 | .ternary => 2 | .or => 3 | .and => 4 | .bitOr => 5 | .bitXor => 6
  | .bitAnd => 7 | .eq => 8 | .rel => 9 | .shift => 10 | .add => 11 | .mult => 12 | .pow => 13
  | .unary => 14 | .primary => 15

/-- The rank of an operator's first token. -/
def orank : Token → Option Nat
  | .Comma => some 0
  | .Question => some 2
  | .OrIf => some 3
  | .AndIf => some 4
  | .Pipe => some 5
  | .Caret => some 6
  | .Amp => some 7
  | .Equals | .Bang => some 8
  | .Less | .Great => some 9
  | .DLess | .DGreat => some 10
  | .Plus | .Dash => some 11
  | .Star | .Slash | .Percent => some 12
  | _ => none

/-- `++` and `--`. -/
def Doubled : List PTok → Prop
  | (_, t) :: (_, t') :: _ => t = t' ∧ (t = .Plus ∨ t = .Dash)
  | _ => False

/-- `**` -/
def StarStar : List PTok → Prop
  | (_, t) :: (_, t') :: _ => t = t' ∧ t = .Star
  | _ => False

/-- What may follow an expression of a level. `ev`: the expression ends in a variable. -/
def Follow (lvl : Level) (ev : Prop) (r : List PTok) : Prop :=
  (∀ x r', r = x :: r' → ∀ k, orank x.2 = some k → k < lrank lvl) ∧ (ev → ¬ Doubled r) ∧
    (lrank lvl ≤ 13 → ¬ StarStar r)

theorem lrank_tighter (lvl : Level) : lrank lvl ≤ lrank lvl.tighter := by
  cases lvl <;> simp [lrank, Level.tighter]

theorem Follow.ev {lvl : Level} {ev ev' : Prop} {r : List PTok} (h : Follow lvl ev r)
    (he : ev' → ev) : Follow lvl ev' r := ⟨h.1, fun h' => h.2.1 (he h'), h.2.2⟩

theorem Follow.tighter {lvl : Level} {ev : Prop} {r : List PTok} (h : Follow lvl ev r) :
    Follow lvl.tighter ev r :=
  ⟨fun x r' hr k hk => Nat.lt_of_lt_of_le (h.1 x r' hr k hk) (lrank_tighter lvl), h.2.1,
    fun hl => h.2.2 (Nat.le_trans (lrank_tighter lvl) hl)⟩

theorem Follow.mono {l1 l2 : Level} {ev : Prop} (hl : lrank l1 ≤ lrank l2) {r : List PTok}
    (h : Follow l1 ev r) : Follow l2 ev r :=
  ⟨fun x r' hr k hk => Nat.lt_of_lt_of_le (h.1 x r' hr k hk) hl, h.2.1,
    fun hl' => h.2.2 (Nat.le_trans hl hl')⟩

theorem follow_cons {lvl : Level} {ev : Prop} {p : SourcePos} {t : Token} {r : List PTok} {k : Nat}
    (h1 : orank t = some k) (h2 : k < lrank lvl)
    (h3 : t ≠ .Plus ∧ t ≠ .Dash ∧ t ≠ .Star) : Follow lvl ev ((p, t) :: r) := by
  refine ⟨?_, fun _ => ?_, fun _ => ?_⟩
  · rintro x r' heq k' hk'; cases heq; simp [h1] at hk'; omega
  · rcases r with _ | ⟨⟨q, t'⟩, r⟩ <;> simp [Doubled]
    grind
  · rcases r with _ | ⟨⟨q, t'⟩, r⟩ <;> simp [StarStar]
    grind

theorem follow_none {lvl : Level} {ev : Prop} {p : SourcePos} {t : Token} {r : List PTok}
    (h1 : orank t = none) : Follow lvl ev ((p, t) :: r) := by
  refine ⟨?_, fun _ => ?_, fun _ => ?_⟩
  · rintro x r' heq k' hk'; cases heq; simp [h1] at hk'
  · rcases r with _ | ⟨⟨q, t'⟩, r⟩ <;> simp [Doubled]
    rintro rfl
    cases t <;> simp [orank] at h1 ⊢
  · rcases r with _ | ⟨⟨q, t'⟩, r⟩ <;> simp [StarStar]
    rintro rfl
    cases t <;> simp [orank] at h1 ⊢

theorem follow_nil {lvl : Level} {ev : Prop} : Follow lvl ev [] :=
  ⟨by simp, by simp [Doubled], by simp [StarStar]⟩

/-! ## How an expression starts -/

/-- The tokens that may start an expression. -/
def starter : Token → Bool
  | .Whitespace _ | .Backslash | .Bang | .Tilde | .Plus | .Dash | .Name _ | .Dollar | .Literal _
  | .ParenOpen => true
  | _ => false

def Starts (u : List PTok) : Prop := ∃ x u', u = x :: u' ∧ starter x.2 = true

theorem Starts.append {u : List PTok} (h : Starts u) (v : List PTok) : Starts (u ++ v) := by
  obtain ⟨x, u', rfl, h⟩ := h
  exact ⟨x, u' ++ v, rfl, h⟩

theorem starts_blanks {bs u : List PTok} (hb : Blanks bs) (h : Starts u) : Starts (bs ++ u) := by
  cases hb with
  | nil => exact h
  | ws _ => exact ⟨_, _, rfl, rfl⟩
  | escaped _ => exact ⟨_, _, rfl, rfl⟩

theorem starts_cons {p : SourcePos} {t : Token} {u : List PTok} (h : starter t = true) :
    Starts ((p, t) :: u) := ⟨_, _, rfl, h⟩

theorem starts_var {vs : List PTok} {x : Str} (h : VarRef vs x) : Starts vs := by
  cases h <;> exact ⟨_, _, rfl, rfl⟩

theorem expr_starts {sep : Signs} {lvl u} {a : DefaultArithmetic}
    (h : Expr sep lvl u a) : Starts u := by
  refine Expr.rec (motive_1 := fun lvl v a _ => Starts v)
    (motive_2 := fun v as _ => Starts v)
    ?_ ?_ ?_ ?_ ?_ ?_ ?_ ?_ ?_ ?_ ?_ ?_ ?_ ?_ ?_ ?_ ?_ ?_ ?_ ?_ ?_ ?_ h
  · intro lvl u a h1 _ ih; exact ih
  · intro u as _ h2 ih; exact ih
  · intro bs' vs x ws p u a h1 h2 h3 h4 _
    exact ((starts_blanks h1 (starts_var h2)).append _).append _
  · intro bs' vs x ws p q op mk u a h1 h2 h3 h4 h5 _
    exact ((starts_blanks h1 (starts_var h2)).append _).append _
  · intro u a bs1 p v b bs2 q w c _ h2 h3 h4 h5 ih _ _
    have := (ih.append bs1).append ((p, .Question) :: v)
    exact (this.append bs2).append _
  · intro lvl u a bs1 op mk v b h1 _ h3 h4 h5 ih _
    exact ((ih.append _).append _).append _
  · intro u a bs1 p q v b _ h2 h3 ih _
    exact (ih.append _).append _
  · intro bs1 p u a h1 h2 _
    exact starts_blanks h1 (starts_cons rfl)
  · intro bs1 p u a h1 h2 _
    exact starts_blanks h1 (starts_cons rfl)
  · intro bs1 p u a h1 h2 h3 _
    exact starts_blanks h1 (starts_cons rfl)
  · intro bs1 p u a h1 h2 h3 _
    exact starts_blanks h1 (starts_cons rfl)
  · intro bs1 p q u a h1 h2 _
    exact starts_blanks h1 (starts_cons rfl)
  · intro bs1 p q u a h1 h2 _
    exact starts_blanks h1 (starts_cons rfl)
  · intro bs1 p q bs2 vs x h1 h2 h3
    exact (starts_blanks h1 (starts_cons (u := (q, .Plus) :: bs2) rfl)).append _
  · intro bs1 p q bs2 vs x h1 h2 h3
    exact (starts_blanks h1 (starts_cons (u := (q, .Dash) :: bs2) rfl)).append _
  · intro bs1 p q bs2 vs x h1 h2 h3
    exact ((starts_blanks h1 (starts_var h2)).append _).append _
  · intro bs1 p q bs2 vs x h1 h2 h3
    exact ((starts_blanks h1 (starts_var h2)).append _).append _
  · intro bs1 vs x h1 h2
    exact starts_blanks h1 (starts_var h2)
  · intro bs1 p s n h1 h2 h3
    exact starts_blanks h1 (starts_cons rfl)
  · intro bs1 p u a bs2 q h1 h2 h3 _
    exact ((starts_blanks h1 (starts_cons (u := u) rfl)).append _).append _
  · intro u a _ ih; exact ih
  · intro u a bs1 p v as _ h2 h3 ih _
    exact (ih.append _).append _

theorem starts_head {u : List PTok} (h : Starts u) (v : List PTok) {t : Token}
    (ht : starter t = false) : (u ++ v).head?.map (·.2) ≠ some t := by
  obtain ⟨x, u', rfl, h⟩ := h
  simp
  rintro rfl
  simp [h] at ht


theorem starts_ne_nil {u : List PTok} (h : Starts u) : u ≠ [] := by
  obtain ⟨x, u', rfl, _⟩ := h
  simp

/-! ## How an expression ends -/

/-- The last token is a name. -/
def LastName (u : List PTok) : Prop := ∃ u' p x, u = u' ++ [(p, Token.Name x)]

theorem lastName_append {u v : List PTok} (hv : v ≠ []) : LastName (u ++ v) ↔ LastName v := by
  constructor
  · rintro ⟨w, p, x, h⟩
    rcases List.eq_nil_or_concat v with rfl | ⟨v', y, rfl⟩
    · exact absurd rfl hv
    · have h : (u ++ v') ++ [y] = w ++ [(p, Token.Name x)] := by simpa using h
      have := List.append_inj_right' h rfl
      exact ⟨v', p, x, by simpa using this⟩
  · rintro ⟨w, p, x, rfl⟩
    exact ⟨u ++ w, p, x, by simp⟩

theorem lastName_cons {y : PTok} {v : List PTok} (hv : v ≠ []) : LastName (y :: v) ↔ LastName v :=
  lastName_append (u := [y]) hv

theorem lastName_var {vs : List PTok} {x : Str} (h : VarRef vs x) : LastName vs := by
  cases h with
  | name => exact ⟨[], _, _, rfl⟩
  | dollar => exact ⟨[_], _, _, rfl⟩

theorem not_lastName {u : List PTok} {p : SourcePos} {t : Token} (ht : ∀ x, t ≠ .Name x) :
    ¬ LastName (u ++ [(p, t)]) := by
  rintro ⟨w, q, x, h⟩
  have := List.append_inj_right' h rfl
  simp at this
  exact ht x this.2

theorem lastVar_bin {lvl : Level} {op : List Token} {mk : BinMk} (h : (op, mk) ∈ binOps lvl)
    (a b : DefaultArithmetic) : lastVar (mk a b) = lastVar b := by
  cases lvl <;> simp [binOps] at h
  all_goals
    first
    | (obtain ⟨_, rfl⟩ := h; simp [lastVar]; done)
    | (rcases h with ⟨_, rfl⟩ | ⟨_, rfl⟩ <;> simp [lastVar] <;> done)
    | (rcases h with ⟨_, rfl⟩ | ⟨_, rfl⟩ | ⟨_, rfl⟩ <;> simp [lastVar] <;> done)
    | (rcases h with ⟨_, rfl⟩ | ⟨_, rfl⟩ | ⟨_, rfl⟩ | ⟨_, rfl⟩ <;> simp [lastVar])

theorem lastVar_compound {op : Token} {mk : BinMk} (h : (op, mk) ∈ compoundOps)
    (a b : DefaultArithmetic) : lastVar (mk a b) = lastVar b := by
  simp [compoundOps] at h
  rcases h with ⟨_, rfl⟩ | ⟨_, rfl⟩ | ⟨_, rfl⟩ | ⟨_, rfl⟩ | ⟨_, rfl⟩ | ⟨_, rfl⟩ | ⟨_, rfl⟩ |
    ⟨_, rfl⟩ | ⟨_, rfl⟩ | ⟨_, rfl⟩ <;> simp [lastVar]

/-- A longer expression ends as its last operand does. -/
theorem endsVar_append {u v : List PTok} {a b : DefaultArithmetic} (hv : v ≠ [])
    (h : lastVar a = lastVar b) : EndsVar (u ++ v) a ↔ EndsVar v b := by
  unfold EndsVar
  have := lastName_append (u := u) hv
  unfold LastName at this
  rw [this, h]

theorem endsVar_cons {y : PTok} {v : List PTok} {a b : DefaultArithmetic} (hv : v ≠ [])
    (h : lastVar a = lastVar b) : EndsVar (y :: v) a ↔ EndsVar v b :=
  endsVar_append (u := [y]) hv h

theorem endsVar_op {u : List PTok} {y : PTok} {v : List PTok} {a b : DefaultArithmetic}
    (hv : v ≠ []) (h : lastVar a = lastVar b) : EndsVar (u ++ y :: v) a ↔ EndsVar v b := by
  rw [endsVar_append (b := a) (by simp) rfl, endsVar_cons hv h]

theorem endsVar_op2 {u : List PTok} {y z : PTok} {v : List PTok} {a b : DefaultArithmetic}
    (hv : v ≠ []) (h : lastVar a = lastVar b) : EndsVar (u ++ y :: z :: v) a ↔ EndsVar v b := by
  rw [endsVar_op (b := a) (by simp) rfl, endsVar_cons hv h]

theorem expr_ne {sep : Signs} {lvl u} {a : DefaultArithmetic} (h : Expr sep lvl u a) : u ≠ [] :=
  starts_ne_nil (expr_starts h)

theorem endsVar_var {bs vs : List PTok} {x : Str} (h : VarRef vs x) :
    EndsVar (bs ++ vs) (.Var x) :=
  (endsVar_append (starts_ne_nil (starts_var h)) rfl).2 ⟨lastName_var h, by simp [lastVar]⟩

theorem not_endsVar {u : List PTok} {p : SourcePos} {t : Token} {a : DefaultArithmetic}
    (ht : ∀ x, t ≠ .Name x) : ¬ EndsVar (u ++ [(p, t)]) a := fun h => not_lastName ht h.1

/-! ## Stronger requirements on signs -/

theorem expr_mono {s s' : Signs} (h1 : ∀ u, s.un u → s'.un u)
    (h2 : ∀ u a op v, s.bin u a op v → s'.bin u a op v) {lvl u} {a : DefaultArithmetic}
    (h : Expr s lvl u a) : Expr s' lvl u a := by
  refine Expr.rec (motive_1 := fun lvl v a _ => Expr s' lvl v a)
    (motive_2 := fun v as _ => Items s' v as)
    ?_ ?_ ?_ ?_ ?_ ?_ ?_ ?_ ?_ ?_ ?_ ?_ ?_ ?_ ?_ ?_ ?_ ?_ ?_ ?_ ?_ ?_ h
  · intro lvl u a h1 _ ih; exact .tighter h1 ih
  · intro u as _ h2 ih; exact .seq ih h2
  · intro bs' vs x ws p u a h1 h2 h3 h4 ih; exact .assign h1 h2 h3 ih
  · intro bs' vs x ws p q op mk u a h1 h2 h3 h4 h5 ih; exact .compound h1 h2 h3 h4 ih
  · intro u a bs1 p v b bs2 q w c _ h2 h3 h4 h5 ih1 ih2 ih3; exact .ternary ih1 h2 ih2 h4 ih3
  · intro lvl u a bs1 op mk v b h1 _ h3 h4 h5 ih1 ih2
    exact .bin h1 ih1 h3 ih2 (fun h => h2 _ _ _ _ (h5 h))
  · intro u a bs1 p q v b _ h2 h3 ih1 ih2; exact .pow ih1 h2 ih2
  · intro bs1 p u a h1 h2 ih; exact .not h1 ih
  · intro bs1 p u a h1 h2 ih; exact .bitNot h1 ih
  · intro bs1 p u a h1' h2 h3 ih; exact .plus h1' ih (h1 _ h3)
  · intro bs1 p u a h1' h2 h3 ih; exact .minus h1' ih (h1 _ h3)
  · intro bs1 p q u a h1 h2 ih; exact .plusMinus h1 ih
  · intro bs1 p q u a h1 h2 ih; exact .minusPlus h1 ih
  · intro bs1 p q bs2 vs x h1 h2 h3; exact .preIncr h1 h2 h3
  · intro bs1 p q bs2 vs x h1 h2 h3; exact .preDecr h1 h2 h3
  · intro bs1 p q bs2 vs x h1 h2 h3; exact .postIncr h1 h2 h3
  · intro bs1 p q bs2 vs x h1 h2 h3; exact .postDecr h1 h2 h3
  · intro bs1 vs x h1 h2; exact .var h1 h2
  · intro bs1 p s n h1 h2 h3; exact .literal h1 h2 h3
  · intro bs1 p u a bs2 q h1 h2 h3 ih; exact .paren h1 ih h3
  · intro u a _ ih; exact .one ih
  · intro u a bs1 p v as _ h2 h3 ih1 ih2; exact .cons ih1 h2 ih2

/-- What the stricter grammar derives, the plain one does. -/
theorem expr_any {s : Signs} {lvl u} {a : DefaultArithmetic} (h : Expr s lvl u a) :
    Expr .any lvl u a := expr_mono (fun _ _ => trivial) (fun _ _ _ _ _ => trivial) h

/-- An operand that starts with no sign may follow every sign. -/
theorem munch_bin {u op v : List PTok} {a : DefaultArithmetic} {lvl : Level} {mk : BinMk}
    (ho : (op.map (·.2), mk) ∈ binOps lvl) (hv : NoSign v) : lvl = .add → Signs.munch.bin u a op v := by
  rintro rfl _ x hx p r rfl
  have h1 : x.2 ∈ op.map (·.2) := List.mem_map_of_mem hx
  simp [binOps] at ho
  obtain ⟨y, t⟩ := x
  rcases ho with ⟨h, _⟩ | ⟨h, _⟩
  · obtain ⟨_, rfl⟩ := h; simp at h1; subst h1; exact (hv p r).1 rfl
  · obtain ⟨_, rfl⟩ := h; simp at h1; subst h1; exact (hv p r).2 rfl

end Conch
