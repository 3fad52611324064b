import Verif.ArithComplete
import Verif.DefaultBuilder
import Verif.Same
/-!
# C22, C23: arithmetic
-/
namespace Conch
open Spec

section
variable {B : Builder}

theorem follow_of_not_op {r : List PTok} (h : ∀ p t r', r = (p, t) :: r' → t ∉ operatorTokens)
    (lvl : Level) (ev : Prop) : Follow lvl ev r := by
  rcases r with _ | ⟨⟨p, t⟩, r⟩
  · exact follow_nil
  · refine follow_none ?_
    have := h p t r rfl
    cases t <;> first | rfl | (simp [operatorTokens] at this)

/-- **C22, soundness.** When `arithmetic_substitution` succeeds with the tree `a`, the tokens it
consumed are an expression of the plain grammar with the tree `a` - operators of the right
precedence and associativity - followed by blanks. -/
theorem C22_arithmetic_sound (s : PSt CIter B) (a : DefaultArithmetic)
    (l : List PTok) (b : B.State)
    (h : Gives .arithmeticSubstitution s (.ok a) l b) :
    ∃ u bs, s.rest = u ++ bs ++ l ∧ Blanks bs ∧ Expr .any .seq u a ∧ b = s.b := by
  obtain ⟨e, he⟩ := gives_state h
  obtain ⟨v, r, h1, h2, u, bs, rfl, h3, h4, _⟩ := post_arithmeticSubstitution _ _ _ he
  have hl : l = r := congrArg (fun x => x.it.rest) h2
  have hb : b = s.b := congrArg (fun x => x.b) h2
  subst hl
  exact ⟨u, bs, h1, h3, expr_any h4, hb⟩

/-- **C22, completeness.** Tokens that the grammar derives with the tree `a`, followed by blanks and
then by something that is neither a blank nor an operator, are consumed and the tree is `a`. -/
theorem C22_arithmetic_complete (s : PSt CIter B) (u bs r : List PTok) (a : DefaultArithmetic)
    (hs : s.rest = u ++ bs ++ r) (hu : Expr .munch .seq u a) (hb : Blanks bs) (hr : NoBlank r)
    (hop : ∀ p t r', r = (p, t) :: r' → t ∉ operatorTokens) :
    Gives .arithmeticSubstitution s (.ok a) r s.b := by
  refine gives_of_eq (e := s.it.1.abs.endPos) ?_
  rw [hs]
  exact arithmeticSubstitution_eq hu hb hr (follow_of_not_op hop _ _)

/-- **C22.** `arithmetic_substitution` succeeds with the tree `a` and leaves `l` exactly if the
tokens before `l` are an expression with the tree `a`, followed by blanks, and `l` starts with
neither a blank nor an operator. -/
theorem C22_arithmetic_exact (s : PSt CIter B) (a : DefaultArithmetic) (l : List PTok) (b : B.State) :
    Gives .arithmeticSubstitution s (.ok a) l b ↔
      ∃ u bs, s.rest = u ++ bs ++ l ∧ Expr .munch .seq u a ∧ Blanks bs ∧ NoBlank l ∧
        (∀ p t r, l = (p, t) :: r → t ∉ operatorTokens) ∧ b = s.b := by
  constructor
  · intro h
    obtain ⟨e, he⟩ := gives_state h
    obtain ⟨v, r, h1, h2, u, bs, rfl, h3, h4, h5⟩ := post_arithmeticSubstitution _ _ _ he
    have hl : l = r := congrArg (fun x => x.it.rest) h2
    have hb : b = s.b := congrArg (fun x => x.b) h2
    subst hl
    exact ⟨u, bs, h1, h4, h3, h5.2 (.inl (by decide)), h5.notOp, hb⟩
  · rintro ⟨u, bs, h1, h2, h3, h4, h5, rfl⟩
    exact C22_arithmetic_complete s u bs l a h1 h2 h3 h4 h5

theorem primary_up {sep : Signs} {u : List PTok} {a : DefaultArithmetic}
    (h : Expr sep .primary u a) (lvl : Level) : Expr sep lvl u a := by
  have h1 : Expr sep .unary u a := .tighter (by simp) h
  have h2 : Expr sep .pow u a := .tighter (by simp) h1
  have h3 : Expr sep .mult u a := .tighter (by simp) h2
  have h4 : Expr sep .add u a := .tighter (by simp) h3
  have h5 : Expr sep .shift u a := .tighter (by simp) h4
  have h6 : Expr sep .rel u a := .tighter (by simp) h5
  have h7 : Expr sep .eq u a := .tighter (by simp) h6
  have h8 : Expr sep .bitAnd u a := .tighter (by simp) h7
  have h9 : Expr sep .bitXor u a := .tighter (by simp) h8
  have h10 : Expr sep .bitOr u a := .tighter (by simp) h9
  have h11 : Expr sep .and u a := .tighter (by simp) h10
  have h12 : Expr sep .or u a := .tighter (by simp) h11
  have h13 : Expr sep .ternary u a := .tighter (by simp) h12
  have h14 : Expr sep .assign u a := .tighter (by simp) h13
  have h15 : Expr sep .seq u a := .tighter (by simp) h14
  cases lvl <;> assumption

theorem up_seq {sep : Signs} {lvl : Level} {u : List PTok} {a : DefaultArithmetic}
    (h : Expr sep lvl u a) : Expr sep .seq u a := by
  have key : ∀ n (lvl : Level), lrank lvl = n → Expr sep lvl u a → Expr sep .seq u a := by
    have h1 : ∀ {l : Level}, l ≠ .primary → Expr sep l.tighter u a → Expr sep l u a :=
      fun h => .tighter h
    intro n
    induction n with
    | zero => intro l hl h; cases l <;> simp [lrank] at hl; exact h
    | succ n ih =>
      intro l hl h
      cases l <;> simp [lrank] at hl
      · exact ih .seq (by simp [lrank]; omega) (h1 (by simp) h)
      · exact ih .assign (by simp [lrank]; omega) (h1 (by simp) h)
      · exact ih .ternary (by simp [lrank]; omega) (h1 (by simp) h)
      · exact ih .or (by simp [lrank]; omega) (h1 (by simp) h)
      · exact ih .and (by simp [lrank]; omega) (h1 (by simp) h)
      · exact ih .bitOr (by simp [lrank]; omega) (h1 (by simp) h)
      · exact ih .bitXor (by simp [lrank]; omega) (h1 (by simp) h)
      · exact ih .bitAnd (by simp [lrank]; omega) (h1 (by simp) h)
      · exact ih .eq (by simp [lrank]; omega) (h1 (by simp) h)
      · exact ih .rel (by simp [lrank]; omega) (h1 (by simp) h)
      · exact ih .shift (by simp [lrank]; omega) (h1 (by simp) h)
      · exact ih .add (by simp [lrank]; omega) (h1 (by simp) h)
      · exact ih .mult (by simp [lrank]; omega) (h1 (by simp) h)
      · exact ih .pow (by simp [lrank]; omega) (h1 (by simp) h)
      · exact ih .unary (by simp [lrank]; omega) (h1 (by simp) h)
  exact key _ lvl rfl h

/-- **C22, one reading.** The grammar gives a token list at most one tree. -/
theorem C22_arithmetic_unambiguous (lvl lvl' : Level) (u : List PTok) (a a' : DefaultArithmetic)
    (h : Expr .munch lvl u a) (h' : Expr .munch lvl' u a') : a = a' := by
  have h1 := arithmeticSubstitution_eq (B := EmptyBuilder) (e := ⟨0, 0, 0⟩) (b := ()) (r := [])
    (up_seq h) .nil (by simp [NoBlank]) follow_nil
  have h2 := arithmeticSubstitution_eq (B := EmptyBuilder) (e := ⟨0, 0, 0⟩) (b := ()) (r := [])
    (up_seq h') .nil (by simp [NoBlank]) follow_nil
  rw [h1] at h2
  injection h2 with h3
  injection h3

/-! ## Every tree can be written -/

theorem number_snoc (base : Nat) (ds : List Nat) (d : Nat) :
    number base (ds ++ [d]) = number base ds * base + d := by
  simp [number]

theorem digits_snoc {base : Nat} {s : Str} {ds : List Nat} (h : Digits base s ds) {c : Char} {d : Nat}
    (hc : (c, d) ∈ digitTable) (hd : d < base) : Digits base (s ++ [c]) (ds ++ [d]) := by
  obtain ⟨h1, h2⟩ := h
  refine ⟨by simp [h1], ?_⟩
  rw [List.zip_append h1]
  intro p hp
  rcases List.mem_append.1 hp with hp | hp
  · exact h2 p hp
  · simp at hp; subst hp; exact ⟨hc, hd⟩

theorem digit_exists (d : Nat) (hd : d < 10) : ∃ c, (c, d) ∈ digitTable ∧ (d ≠ 0 → c ≠ '0') := by
  have : ∀ d : Fin 10, ∃ c, (c, d.val) ∈ digitTable ∧ (d.val ≠ 0 → c ≠ '0') := by
    intro d
    match d with
    | 0 => exact ⟨'0', by decide⟩
    | 1 => exact ⟨'1', by decide⟩
    | 2 => exact ⟨'2', by decide⟩
    | 3 => exact ⟨'3', by decide⟩
    | 4 => exact ⟨'4', by decide⟩
    | 5 => exact ⟨'5', by decide⟩
    | 6 => exact ⟨'6', by decide⟩
    | 7 => exact ⟨'7', by decide⟩
    | 8 => exact ⟨'8', by decide⟩
    | 9 => exact ⟨'9', by decide⟩
  exact this ⟨d, hd⟩

theorem decimal_exists (n : Nat) : ∃ s ds, s ≠ [] ∧ Digits 10 s ds ∧ number 10 ds = n ∧
    (0 < n → s.head? ≠ some '0') := by
  induction n using Nat.strongRecOn with
  | _ n ih =>
    obtain ⟨c, hc, hc0⟩ := digit_exists (n % 10) (Nat.mod_lt _ (by omega))
    by_cases h : n < 10
    · refine ⟨[c], [n % 10], by simp, ?_, ?_, ?_⟩
      · exact ⟨rfl, by intro p hp; simp at hp; subst hp; exact ⟨hc, Nat.mod_lt _ (by omega)⟩⟩
      · simp [number]; omega
      · intro hn; simp; exact hc0 (by omega)
    · obtain ⟨s, ds, h1, h2, h3, h4⟩ := ih (n / 10) (by omega)
      refine ⟨s ++ [c], ds ++ [n % 10], by simp, digits_snoc h2 hc (Nat.mod_lt _ (by omega)), ?_, ?_⟩
      · rw [number_snoc, h3]; omega
      · intro _
        rcases s with _ | ⟨x, s⟩
        · exact absurd rfl h1
        · simpa using h4 (by omega)

theorem numeral_exists (n : Int) : ∃ s, Numeral s n := by
  obtain ⟨s, ds, h1, h2, h3, h4⟩ := decimal_exists n.natAbs
  by_cases h : 0 ≤ n
  · by_cases h0 : n = 0
    · subst h0
      exact ⟨['0', 'x'], .zero (.inl rfl)⟩
    · refine ⟨s, .dec (h4 (by omega)) ?_⟩
      have := Signed.plain h1 h2
      rw [h3] at this
      rwa [show ((n.natAbs : Nat) : Int) = n by omega] at this
  · refine ⟨'-' :: s, .dec (by simp) ?_⟩
    have := Signed.minus h1 h2
    rw [h3] at this
    rwa [show (-((n.natAbs : Nat) : Int)) = n by omega] at this

/-- A position. -/
def somePos : SourcePos := ⟨0, 1, 1⟩

theorem paren_of {u : List PTok} {a : DefaultArithmetic} {lvl : Level} (h : Expr .munch lvl u a) :
    ∃ u, Expr .munch .primary u a ∧ NoSign u := by
  refine ⟨_, .paren (p := somePos) (q := somePos) .nil (up_seq h) .nil, ?_⟩
  intro p r
  constructor <;> simp

theorem items_of {as : List DefaultArithmetic} (hne : as ≠ [])
    (h : ∀ a ∈ as, ∃ u, Expr .munch .primary u a ∧ NoSign u) : ∃ u, Items .munch u as := by
  induction as with
  | nil => exact absurd rfl hne
  | cons a as ih =>
    obtain ⟨u, hu, _⟩ := h a (by simp)
    rcases as with _ | ⟨c, as⟩
    · exact ⟨u, .one (primary_up hu _)⟩
    · obtain ⟨v, hv⟩ := ih (by simp) (fun x hx => h x (by simp [hx]))
      exact ⟨_, .cons (p := somePos) (primary_up hu _) .nil hv⟩

theorem writable_derivable {a : DefaultArithmetic} (h : Writable a) :
    ∃ u, Expr .munch .primary u a ∧ NoSign u := by
  induction h with
  | @var x =>
    exact ⟨_, .var (vs := [(somePos, .Name x)]) .nil .name, by intro p r; constructor <;> simp⟩
  | @literal n hn =>
    obtain ⟨s, hs⟩ := numeral_exists n
    exact ⟨_, .literal (p := somePos) .nil hs hn, by intro p r; constructor <;> simp⟩
  | @postIncr x =>
    exact paren_of (.postIncr (p := somePos) (q := somePos) (vs := [(somePos, .Name x)]) .nil .name .nil)
  | @postDecr x =>
    exact paren_of (.postDecr (p := somePos) (q := somePos) (vs := [(somePos, .Name x)]) .nil .name .nil)
  | @preIncr x =>
    exact paren_of (.preIncr (p := somePos) (q := somePos) (vs := [(somePos, .Name x)]) .nil .nil .name)
  | @preDecr x =>
    exact paren_of (.preDecr (p := somePos) (q := somePos) (vs := [(somePos, .Name x)]) .nil .nil .name)
  | @un mk a hmk _ ih =>
    obtain ⟨u, hu, hs⟩ := ih
    have hu := primary_up hu .unary
    simp at hmk
    rcases hmk with rfl | rfl | rfl | rfl
    · exact paren_of (.plus (p := somePos) .nil hu hs)
    · exact paren_of (.minus (p := somePos) .nil hu hs)
    · exact paren_of (.not (p := somePos) .nil hu)
    · exact paren_of (.bitNot (p := somePos) .nil hu)
  | @bin lvl op mk a c hop _ _ ih1 ih2 =>
    obtain ⟨u, hu, _⟩ := ih1
    obtain ⟨v, hv, hs⟩ := ih2
    refine paren_of (.bin (op := op.map fun t => (somePos, t)) (lvl := lvl) ?_ (primary_up hu _) .nil
      (primary_up hv _) (munch_bin (mk := mk) ?_ hs)) <;> simpa [Function.comp_def] using hop
  | @pow a c _ _ ih1 ih2 =>
    obtain ⟨u, hu, _⟩ := ih1
    obtain ⟨v, hv, hs⟩ := ih2
    exact paren_of (.pow (p := somePos) (q := somePos) (primary_up hu _) .nil (primary_up hv _))
  | @ternary a c d _ _ _ ih1 ih2 ih3 =>
    obtain ⟨u, hu, _⟩ := ih1
    obtain ⟨v, hv, _⟩ := ih2
    obtain ⟨w, hw, _⟩ := ih3
    exact paren_of (.ternary (p := somePos) (q := somePos) (primary_up hu _) .nil (primary_up hv _) .nil
      (primary_up hw _))
  | @assign x a _ ih =>
    obtain ⟨u, hu, _⟩ := ih
    exact paren_of (.assign (p := somePos) (vs := [(somePos, .Name x)]) (ws := []) .nil .name (by simp)
      (primary_up hu _))
  | @seq as hl _ ih =>
    obtain ⟨u, hu⟩ := items_of (by rintro rfl; simp at hl) ih
    exact paren_of (.seq hu hl)

theorem expr_writable {sep : Signs} {lvl u} {a : DefaultArithmetic}
    (h : Expr sep lvl u a) : Writable a := by
  refine Expr.rec (motive_1 := fun lvl v a _ => Writable a)
    (motive_2 := fun v as _ => ∀ a ∈ as, Writable a)
    ?_ ?_ ?_ ?_ ?_ ?_ ?_ ?_ ?_ ?_ ?_ ?_ ?_ ?_ ?_ ?_ ?_ ?_ ?_ ?_ ?_ ?_ h
  · intro lvl u a h1 _ ih; exact ih
  · intro u as _ h2 ih; exact .seq h2 ih
  · intro bs' vs x ws p u a h1 h2 h3 h4 ih; exact .assign ih
  · intro bs' vs x ws p q op mk u a h1 h2 h3 h4 h5 ih
    have : ∃ lvl, ([op], mk) ∈ binOps lvl := by
      simp [compoundOps] at h4
      rcases h4 with ⟨rfl, rfl⟩ | ⟨rfl, rfl⟩ | ⟨rfl, rfl⟩ | ⟨rfl, rfl⟩ | ⟨rfl, rfl⟩ | ⟨rfl, rfl⟩ |
        ⟨rfl, rfl⟩ | ⟨rfl, rfl⟩ | ⟨rfl, rfl⟩ | ⟨rfl, rfl⟩
      · exact ⟨.mult, by simp [binOps]⟩
      · exact ⟨.mult, by simp [binOps]⟩
      · exact ⟨.mult, by simp [binOps]⟩
      · exact ⟨.add, by simp [binOps]⟩
      · exact ⟨.add, by simp [binOps]⟩
      · exact ⟨.shift, by simp [binOps]⟩
      · exact ⟨.shift, by simp [binOps]⟩
      · exact ⟨.bitAnd, by simp [binOps]⟩
      · exact ⟨.bitOr, by simp [binOps]⟩
      · exact ⟨.bitXor, by simp [binOps]⟩
    obtain ⟨lvl, hm⟩ := this
    exact .assign (.bin hm .var ih)
  · intro u a bs1 p v b bs2 q w c _ h2 h3 h4 h5 ih1 ih2 ih3; exact .ternary ih1 ih2 ih3
  · intro lvl u a bs1 op mk v b h1 _ h3 h4 h5 ih1 ih2; exact .bin h1 ih1 ih2
  · intro u a bs1 p q v b _ h2 h3 ih1 ih2; exact .pow ih1 ih2
  · intro bs1 p u a h1 h2 ih; exact .un (by simp) ih
  · intro bs1 p u a h1 h2 ih; exact .un (by simp) ih
  · intro bs1 p u a h1 h2 h3 ih; exact .un (by simp) ih
  · intro bs1 p u a h1 h2 h3 ih; exact .un (by simp) ih
  · intro bs1 p q u a h1 h2 ih; exact .un (by simp) (.un (mk := .UnaryMinus) (by simp) ih)
  · intro bs1 p q u a h1 h2 ih; exact .un (by simp) (.un (mk := .UnaryPlus) (by simp) ih)
  · intro bs1 p q bs2 vs x h1 h2 h3; exact .preIncr
  · intro bs1 p q bs2 vs x h1 h2 h3; exact .preDecr
  · intro bs1 p q bs2 vs x h1 h2 h3; exact .postIncr
  · intro bs1 p q bs2 vs x h1 h2 h3; exact .postDecr
  · intro bs1 vs x h1 h2; exact .var
  · intro bs1 p s n h1 h2 h3; exact .literal h3
  · intro bs1 p u a bs2 q h1 h2 h3 ih; exact ih
  · intro u a _ ih c hc; simp at hc; subst hc; exact ih
  · intro u a bs1 p v as _ h2 h3 ih1 ih2 c hc
    rcases List.mem_cons.1 hc with rfl | hc
    · exact ih1
    · exact ih2 c hc

/-! ### Positions do not matter -/

theorem same_blanks {u bs : List PTok} (h : Same u bs) (hb : Blanks bs) : Blanks u := by
  induction hb generalizing u with
  | nil => rw [h.nil]; exact .nil
  | ws _ ih => replace h := h.cons; obtain ⟨p, y, rfl, h⟩ := h; exact .ws (ih h)
  | escaped _ ih =>
    replace h := h.cons; obtain ⟨p, y, rfl, h⟩ := h
    replace h := h.cons; obtain ⟨q, z, rfl, h⟩ := h
    exact .escaped (ih h)

theorem same_var {u vs : List PTok} {x : Str} (h : Same u vs) (hv : VarRef vs x) : VarRef u x := by
  cases hv with
  | name => replace h := h.cons; obtain ⟨p, y, rfl, h⟩ := h; rw [h.nil]; exact .name
  | dollar =>
    replace h := h.cons; obtain ⟨p, y, rfl, h⟩ := h
    replace h := h.cons; obtain ⟨q, z, rfl, h⟩ := h
    rw [h.nil]; exact .dollar

theorem same_ws {u ws : List PTok} (h : Same u ws) (hw : ∀ t ∈ ws, ∃ w, t.2 = Token.Whitespace w) :
    ∀ t ∈ u, ∃ w, t.2 = Token.Whitespace w := by
  intro t ht
  have : t.2 ∈ ws.map (·.2) := by rw [← h]; exact List.mem_map_of_mem ht
  obtain ⟨t', h1, h2⟩ := List.mem_map.1 this
  obtain ⟨w, hw⟩ := hw t' h1
  exact ⟨w, by rw [← h2]; exact hw⟩

theorem same_noSign {u v : List PTok} (h : Same u v) (hs : NoSign v) : NoSign u := by
  intro p r
  constructor
  · rintro rfl
    rcases v with _ | ⟨⟨q, t⟩, v⟩
    · simp [Same] at h
    · simp [Same] at h; rw [← h.1] at hs; exact (hs q v).1 rfl
  · rintro rfl
    rcases v with _ | ⟨⟨q, t⟩, v⟩
    · simp [Same] at h
    · simp [Same] at h; rw [← h.1] at hs; exact (hs q v).2 rfl

theorem same_endsVar {u v : List PTok} {a : DefaultArithmetic} (h : Same u v) (he : EndsVar u a) :
    EndsVar v a := by
  obtain ⟨⟨u', p, x, rfl⟩, hl⟩ := he
  refine ⟨?_, hl⟩
  have h : Same v (u' ++ [(p, .Name x)]) := h.symm
  obtain ⟨v', w, rfl, _, hw⟩ := h.append
  obtain ⟨q, w', rfl, hw2⟩ := hw.cons
  obtain rfl := Same.nil hw2
  exact ⟨v', q, x, rfl⟩

theorem same_bin {u u' op op' v v' : List PTok} {a : DefaultArithmetic} (hu : Same u' u)
    (ho : Same op' op) (hv : Same v' v) (h : Signs.munch.bin u a op v) :
    Signs.munch.bin u' a op' v' := by
  rintro he ⟨p, t⟩ hx q r rfl
  have h1 : t ∈ op.map (·.2) := by rw [← ho]; exact List.mem_map_of_mem (f := (·.2)) hx
  obtain ⟨⟨p', t'⟩, h2, rfl⟩ := List.mem_map.1 h1
  obtain ⟨q', r', rfl, _⟩ := Same.cons hv.symm
  exact h (same_endsVar hu he) _ h2 q' r' rfl

theorem same_expr
    {lvl u} {a : DefaultArithmetic} (h : Expr .munch lvl u a) :
    ∀ u', Same u' u → Expr .munch lvl u' a := by
  refine Expr.rec (motive_1 := fun lvl u a _ => ∀ u', Same u' u → Expr .munch lvl u' a)
    (motive_2 := fun u as _ => ∀ u', Same u' u → Items .munch u' as)
    ?_ ?_ ?_ ?_ ?_ ?_ ?_ ?_ ?_ ?_ ?_ ?_ ?_ ?_ ?_ ?_ ?_ ?_ ?_ ?_ ?_ ?_ h
  · intro lvl u a h1 _ ih u' hs; exact .tighter h1 (ih u' hs)
  · intro u as _ h2 ih u' hs; exact .seq (ih u' hs) h2
  · intro bs' vs x ws p u a h1 h2 h3 h4 ih u' hs
    replace hs := hs.append; obtain ⟨x1, x2, rfl, hs, hs2⟩ := hs
    replace hs := hs.append; obtain ⟨x1, x3, rfl, hs, hs3⟩ := hs
    replace hs := hs.append; obtain ⟨x1, x4, rfl, hs, hs4⟩ := hs
    replace hs2 := hs2.cons; obtain ⟨p', x2, rfl, hs2⟩ := hs2
    exact .assign (same_blanks hs h1) (same_var hs4 h2) (same_ws hs3 h3) (ih _ hs2)
  · intro bs' vs x ws p q op mk u a h1 h2 h3 h4 h5 ih u' hs
    replace hs := hs.append; obtain ⟨x1, x2, rfl, hs, hs2⟩ := hs
    replace hs := hs.append; obtain ⟨x1, x3, rfl, hs, hs3⟩ := hs
    replace hs := hs.append; obtain ⟨x1, x4, rfl, hs, hs4⟩ := hs
    replace hs2 := hs2.cons; obtain ⟨p', x2, rfl, hs2⟩ := hs2
    replace hs2 := hs2.cons; obtain ⟨q', x2, rfl, hs2⟩ := hs2
    exact .compound (same_blanks hs h1) (same_var hs4 h2) (same_ws hs3 h3) h4 (ih _ hs2)
  · intro u a bs1 p v b bs2 q w c _ h2 h3 h4 h5 ih1 ih2 ih3 u' hs
    replace hs := hs.append; obtain ⟨x1, x2, rfl, hs, hs2⟩ := hs
    replace hs := hs.append; obtain ⟨x1, x3, rfl, hs, hs3⟩ := hs
    replace hs := hs.append; obtain ⟨x1, x4, rfl, hs, hs4⟩ := hs
    replace hs := hs.append; obtain ⟨x1, x5, rfl, hs, hs5⟩ := hs
    replace hs2 := hs2.cons; obtain ⟨p', x2, rfl, hs2⟩ := hs2
    replace hs4 := hs4.cons; obtain ⟨q', x4, rfl, hs4⟩ := hs4
    exact .ternary (ih1 _ hs) (same_blanks hs5 h2) (ih2 _ hs4) (same_blanks hs3 h4) (ih3 _ hs2)
  · intro lvl u a bs1 op mk v b h1 _ h3 h4 h5 ih1 ih2 u' hs
    replace hs := hs.append; obtain ⟨x1, x2, rfl, hs, hs2⟩ := hs
    replace hs := hs.append; obtain ⟨x1, x3, rfl, hs, hs3⟩ := hs
    replace hs := hs.append; obtain ⟨x1, x4, rfl, hs, hs4⟩ := hs
    refine .bin (mk := mk) ?_ (ih1 _ hs) (same_blanks hs4 h3) (ih2 _ hs2)
      (fun h => same_bin hs hs3 hs2 (h5 h))
    rw [hs3]; exact h1
  · intro u a bs1 p q v b _ h2 h3 ih1 ih2 u' hs
    replace hs := hs.append; obtain ⟨x1, x2, rfl, hs, hs2⟩ := hs
    replace hs := hs.append; obtain ⟨x1, x3, rfl, hs, hs3⟩ := hs
    replace hs2 := hs2.cons; obtain ⟨p', x2, rfl, hs2⟩ := hs2
    replace hs2 := hs2.cons; obtain ⟨q', x2, rfl, hs2⟩ := hs2
    exact .pow (ih1 _ hs) (same_blanks hs3 h2) (ih2 _ hs2)
  · intro bs1 p u a h1 h2 ih u' hs
    replace hs := hs.append; obtain ⟨x1, x2, rfl, hs, hs2⟩ := hs
    replace hs2 := hs2.cons; obtain ⟨p', x2, rfl, hs2⟩ := hs2
    exact .not (same_blanks hs h1) (ih _ hs2)
  · intro bs1 p u a h1 h2 ih u' hs
    replace hs := hs.append; obtain ⟨x1, x2, rfl, hs, hs2⟩ := hs
    replace hs2 := hs2.cons; obtain ⟨p', x2, rfl, hs2⟩ := hs2
    exact .bitNot (same_blanks hs h1) (ih _ hs2)
  · intro bs1 p u a h1 h2 h3 ih u' hs
    replace hs := hs.append; obtain ⟨x1, x2, rfl, hs, hs2⟩ := hs
    replace hs2 := hs2.cons; obtain ⟨p', x2, rfl, hs2⟩ := hs2
    exact .plus (same_blanks hs h1) (ih _ hs2) (same_noSign hs2 h3)
  · intro bs1 p u a h1 h2 h3 ih u' hs
    replace hs := hs.append; obtain ⟨x1, x2, rfl, hs, hs2⟩ := hs
    replace hs2 := hs2.cons; obtain ⟨p', x2, rfl, hs2⟩ := hs2
    exact .minus (same_blanks hs h1) (ih _ hs2) (same_noSign hs2 h3)
  · intro bs1 p q u a h1 h2 ih u' hs
    replace hs := hs.append; obtain ⟨x1, x2, rfl, hs, hs2⟩ := hs
    replace hs2 := hs2.cons; obtain ⟨p', x2, rfl, hs2⟩ := hs2
    replace hs2 := hs2.cons; obtain ⟨q', x2, rfl, hs2⟩ := hs2
    exact .plusMinus (same_blanks hs h1) (ih _ hs2)
  · intro bs1 p q u a h1 h2 ih u' hs
    replace hs := hs.append; obtain ⟨x1, x2, rfl, hs, hs2⟩ := hs
    replace hs2 := hs2.cons; obtain ⟨p', x2, rfl, hs2⟩ := hs2
    replace hs2 := hs2.cons; obtain ⟨q', x2, rfl, hs2⟩ := hs2
    exact .minusPlus (same_blanks hs h1) (ih _ hs2)
  · intro bs1 p q bs2 vs x h1 h2 h3 u' hs
    replace hs := hs.append; obtain ⟨x1, x2, rfl, hs, hs2⟩ := hs
    replace hs := hs.append; obtain ⟨x1, x3, rfl, hs, hs3⟩ := hs
    replace hs3 := hs3.cons; obtain ⟨p', x3, rfl, hs3⟩ := hs3
    replace hs3 := hs3.cons; obtain ⟨q', x3, rfl, hs3⟩ := hs3
    exact .preIncr (same_blanks hs h1) (same_blanks hs3 h2) (same_var hs2 h3)
  · intro bs1 p q bs2 vs x h1 h2 h3 u' hs
    replace hs := hs.append; obtain ⟨x1, x2, rfl, hs, hs2⟩ := hs
    replace hs := hs.append; obtain ⟨x1, x3, rfl, hs, hs3⟩ := hs
    replace hs3 := hs3.cons; obtain ⟨p', x3, rfl, hs3⟩ := hs3
    replace hs3 := hs3.cons; obtain ⟨q', x3, rfl, hs3⟩ := hs3
    exact .preDecr (same_blanks hs h1) (same_blanks hs3 h2) (same_var hs2 h3)
  · intro bs1 p q bs2 vs x h1 h2 h3 u' hs
    replace hs := hs.append; obtain ⟨x1, x2, rfl, hs, hs2⟩ := hs
    replace hs := hs.append; obtain ⟨x1, x3, rfl, hs, hs3⟩ := hs
    replace hs := hs.append; obtain ⟨x1, x4, rfl, hs, hs4⟩ := hs
    replace hs2 := hs2.cons; obtain ⟨p', x2, rfl, hs2⟩ := hs2
    replace hs2 := hs2.cons; obtain ⟨q', x2, rfl, hs2⟩ := hs2
    rw [hs2.nil]
    exact .postIncr (same_blanks hs h1) (same_var hs4 h2) (same_blanks hs3 h3)
  · intro bs1 p q bs2 vs x h1 h2 h3 u' hs
    replace hs := hs.append; obtain ⟨x1, x2, rfl, hs, hs2⟩ := hs
    replace hs := hs.append; obtain ⟨x1, x3, rfl, hs, hs3⟩ := hs
    replace hs := hs.append; obtain ⟨x1, x4, rfl, hs, hs4⟩ := hs
    replace hs2 := hs2.cons; obtain ⟨p', x2, rfl, hs2⟩ := hs2
    replace hs2 := hs2.cons; obtain ⟨q', x2, rfl, hs2⟩ := hs2
    rw [hs2.nil]
    exact .postDecr (same_blanks hs h1) (same_var hs4 h2) (same_blanks hs3 h3)
  · intro bs1 vs x h1 h2 u' hs
    replace hs := hs.append; obtain ⟨x1, x2, rfl, hs, hs2⟩ := hs
    exact .var (same_blanks hs h1) (same_var hs2 h2)
  · intro bs1 p s n h1 h2 h3 u' hs
    replace hs := hs.append; obtain ⟨x1, x2, rfl, hs, hs2⟩ := hs
    replace hs2 := hs2.cons; obtain ⟨p', x2, rfl, hs2⟩ := hs2
    rw [hs2.nil]
    exact .literal (same_blanks hs h1) h2 h3
  · intro bs1 p u a bs2 q h1 h2 h3 ih u' hs
    replace hs := hs.append; obtain ⟨x1, x2, rfl, hs, hs2⟩ := hs
    replace hs := hs.append; obtain ⟨x1, x3, rfl, hs, hs3⟩ := hs
    replace hs := hs.append; obtain ⟨x1, x4, rfl, hs, hs4⟩ := hs
    replace hs4 := hs4.cons; obtain ⟨p', x4, rfl, hs4⟩ := hs4
    replace hs2 := hs2.cons; obtain ⟨q', x2, rfl, hs2⟩ := hs2
    rw [hs2.nil]
    exact .paren (same_blanks hs h1) (ih _ hs4) (same_blanks hs3 h3)
  · intro u a _ ih u' hs; exact .one (ih _ hs)
  · intro u a bs1 p v as _ h2 h3 ih1 ih2 u' hs
    replace hs := hs.append; obtain ⟨x1, x2, rfl, hs, hs2⟩ := hs
    replace hs := hs.append; obtain ⟨x1, x3, rfl, hs, hs3⟩ := hs
    replace hs2 := hs2.cons; obtain ⟨p', x2, rfl, hs2⟩ := hs2
    exact .cons (ih1 _ hs) (same_blanks hs3 h2) (ih2 _ hs2)


/-- The parser on a list of tokens. -/
def parserOn (ts : List Token) (b : B.State) : PSt CIter B := ⟨TokStream.ofTokens ts, b⟩

theorem parserOn_rest (ts : List Token) (b : B.State) :
    (parserOn (B := B) ts b).rest.map (·.2) = ts := by
  show (annotate .new ts).map (·.2) = ts
  generalize SourcePos.new = p
  induction ts generalizing p with
  | nil => rfl
  | cons t ts ih => simp [annotate, ih]

/-- **C22, the range.** What `arithmetic_substitution` can return are exactly the trees whose
literals fit into `isize` and whose sequences have at least two items; each is the reading of some
token list. -/
theorem C22_arithmetic_range (b : B.State) (a : DefaultArithmetic) :
    Writable a ↔ ∃ ts, (Method.arithmeticSubstitution.run (parserOn (B := B) ts b)).1 = .ok a := by
  constructor
  · intro h
    obtain ⟨u, hu, _⟩ := writable_derivable h
    refine ⟨u.map (·.2), ?_⟩
    have hsame : Same (parserOn (B := B) (u.map (·.2)) b).rest u := parserOn_rest _ _
    exact (C22_arithmetic_complete _ _ [] [] a (by simp)
      (same_expr (primary_up hu .seq) _ hsame) .nil (by simp [NoBlank]) (by simp)).1
  · rintro ⟨ts, h⟩
    obtain ⟨u, bs, _, _, hu, _⟩ := C22_arithmetic_sound _ _ _ _ ⟨h, rfl, rfl⟩
    exact expr_writable hu

/-- The hypotheses of the theorems are met: `a = 1 + 2 * -b ** 2 , c` as a sequence of an
assignment and a variable. -/
example : Expr .munch .seq
    [(somePos, .Name ['a']), (somePos, .Equals), (somePos, .Literal ['1']), (somePos, .Plus),
     (somePos, .Literal ['2']), (somePos, .Star), (somePos, .Dash), (somePos, .Name ['b']),
     (somePos, .Star), (somePos, .Star), (somePos, .Literal ['2']), (somePos, .Comma),
     (somePos, .Name ['c'])]
    (.Sequence [.Assign ['a'] (.Add (.Literal 1) (.Mult (.Literal 2)
      (.Pow (.UnaryMinus (.Var ['b'])) (.Literal 2)))), .Var ['c']]) := by
  have lit : ∀ d n, (d, n) ∈ digitTable → n < 10 → n ≠ 0 → d ≠ '0' → ∀ lvl,
      Expr .munch lvl [(somePos, .Literal [d])] (.Literal n) := by
    intro d n h1 h2 h3 h4 lvl
    refine primary_up (.literal (bs := []) .nil ?_ ?_) lvl
    · have := Signed.plain (base := 10) (s := [d]) (ds := [n]) (by simp)
        ⟨rfl, by intro p hp; simp at hp; subst hp; exact ⟨h1, h2⟩⟩
      have hn : number 10 [n] = n := by simp [number]
      rw [hn] at this
      exact .dec (by simpa using h4) this
    · constructor <;> omega
  have var : ∀ x lvl, Expr .munch lvl [(somePos, .Name x)] (.Var x) :=
    fun x lvl => primary_up (.var (bs := []) (vs := [(somePos, .Name x)]) .nil .name) lvl
  have neg : Expr .munch .unary [(somePos, .Dash), (somePos, .Name ['b'])]
      (.UnaryMinus (.Var ['b'])) :=
    .minus (bs := []) .nil (var ['b'] .unary) (by intro p r; constructor <;> simp)
  have pow := Expr.pow (bs := []) (p := somePos) (q := somePos) neg .nil
    (lit '2' 2 (by decide) (by omega) (by omega) (by decide) .pow)
  have mul := Expr.bin (lvl := .mult) (bs := []) (op := [(somePos, .Star)]) (mk := .Mult)
    (by simp [binOps]) (lit '2' 2 (by decide) (by omega) (by omega) (by decide) .mult) .nil pow
    (by simp)
  have add := Expr.bin (lvl := .add) (bs := []) (op := [(somePos, .Plus)]) (mk := .Add)
    (by simp [binOps]) (lit '1' 1 (by decide) (by omega) (by omega) (by decide) .add) .nil mul
    (munch_bin (mk := .Add) (by simp [binOps]) (by intro p r; constructor <;> simp))
  have s0 : Expr .munch .shift _ _ := .tighter (by simp) add
  have s1 : Expr .munch .rel _ _ := .tighter (by simp) s0
  have s2 : Expr .munch .eq _ _ := .tighter (by simp) s1
  have s3 : Expr .munch .bitAnd _ _ := .tighter (by simp) s2
  have s4 : Expr .munch .bitXor _ _ := .tighter (by simp) s3
  have s5 : Expr .munch .bitOr _ _ := .tighter (by simp) s4
  have s6 : Expr .munch .and _ _ := .tighter (by simp) s5
  have s7 : Expr .munch .or _ _ := .tighter (by simp) s6
  have s8 : Expr .munch .ternary _ _ := .tighter (by simp) s7
  have s9 : Expr .munch .assign _ _ := .tighter (by simp) s8
  have asg := Expr.assign (bs := []) (vs := [(somePos, .Name ['a'])]) (x := ['a']) (ws := [])
    (p := somePos) .nil .name (by simp) s9
  exact .seq (.cons (bs := []) (p := somePos) asg .nil (.one (var ['c'] .assign))) (by simp)

/-- Signs: `1--x` is `1 - (-x)`, and `-+x` is `-(+x)`. -/
example : Expr .munch .add
    [(somePos, .Literal ['1']), (somePos, .Dash), (somePos, .Dash), (somePos, .Name ['x'])]
    (.Sub (.Literal 1) (.UnaryMinus (.Var ['x']))) ∧
    Expr .munch .unary [(somePos, .Dash), (somePos, .Plus), (somePos, .Name ['x'])]
      (.UnaryMinus (.UnaryPlus (.Var ['x']))) := by
  have var : ∀ lvl, Expr .munch lvl [(somePos, .Name ['x'])] (.Var ['x']) :=
    fun lvl => primary_up (.var (bs := []) (vs := [(somePos, .Name ['x'])]) .nil .name) lvl
  refine ⟨?_, .minusPlus (bs := []) .nil (var .unary)⟩
  have lit : Expr .munch .add [(somePos, .Literal ['1'])] (.Literal 1) := by
    refine primary_up (.literal (bs := []) .nil (.dec (by simp) ?_) (by constructor <;> omega)) .add
    exact Signed.plain (base := 10) (s := ['1']) (ds := [1]) (by simp)
      ⟨rfl, by intro p hp; simp at hp; subst hp; decide⟩
  have neg := Expr.minus (bs := []) (p := somePos) .nil (var .unary)
    (sep := .munch) (by intro p r; constructor <;> simp)
  have m1 : Expr .munch .pow _ _ := .tighter (by simp) neg
  have m2 : Expr .munch .mult _ _ := .tighter (by simp) m1
  exact Expr.bin (lvl := .add) (bs := []) (op := [(somePos, .Dash)]) (mk := .Sub) (by simp [binOps])
    lit .nil m2 (fun _ h => by simp [EndsVar, lastVar] at h)

/-- A literal after blanks that is followed by nothing of arithmetic. -/
theorem literal_ok (bs r : List PTok) (p : SourcePos) (x : Str) (n : Int) (hb : Blanks bs)
    (h1 : Numeral x n) (h2 : InRange n) (lvl : Level) :
    Expr .munch lvl (bs ++ [(p, .Literal x)]) (.Literal n) :=
  primary_up (.literal hb h1 h2) lvl

theorem literal_err {e : SourcePos} {b : B.State} {bs r : List PTok} {p : SourcePos} {x : Str}
    (hb : Blanks bs) (h : literalValue x = none) :
    arithmeticSubstitution (st (bs ++ (p, .Literal x) :: r) e b) =
      (.err (.Unexpected (.Literal x) p), st r e b) := by
  have hnb : NoBlank ((p, .Literal x) :: r) := noBlank_cons rfl (by simp)
  obtain ⟨R, hR⟩ : ∃ R : ArithRec AIter B,
      R = ArithRec.fix ((bs ++ (p, Token.Literal x) :: r).length + 1) := ⟨_, rfl⟩
  have h1 : arithVar (st ((p, .Literal x) :: r) e b) =
      (.err (.Unexpected (.Literal x) p), st r e b) := by
    unfold arithVar
    rw [bind_ok (skipWhitespace_noop hnb), eatMaybe_bind_no _ (by simp), peek_bind]
    rfl
  have h2 : arithPostIncr R (st ((p, .Literal x) :: r) e b) =
      (.err (.Unexpected (.Literal x) p), st r e b) := by
    unfold arithPostIncr arithVarPost
    rw [bind_ok (skipWhitespace_noop hnb), peek_bind]
    simp only [List.head?_cons, Option.map_some, h]
    exact bind_err h1
  have h3 : fnOf .unary R (st ((p, .Literal x) :: r) e b) =
      (.err (.Unexpected (.Literal x) p), st r e b) := by
    show arithUnary R _ = _
    unfold arithUnary
    rw [bind_ok (skipWhitespace_noop hnb), peek_bind]
    exact h2
  have h4 : fnOf .pow R (st ((p, .Literal x) :: r) e b) =
      (.err (.Unexpected (.Literal x) p), st r e b) := by
    show arithPow R _ = _
    unfold arithPow
    exact bind_err h3
  have step : ∀ lvl : Level, isBin lvl = true →
      fnOf lvl.tighter R (st ((p, .Literal x) :: r) e b) =
        (.err (.Unexpected (.Literal x) p), st r e b) →
      fnOf lvl R (st ((p, .Literal x) :: r) e b) =
        (.err (.Unexpected (.Literal x) p), st r e b) := by
    intro lvl hl h
    rw [fnOf_bin hl]
    exact bind_err h
  have h5 := step .or rfl (step .and rfl (step .bitOr rfl (step .bitXor rfl (step .bitAnd rfl
    (step .eq rfl (step .rel rfl (step .shift rfl (step .add rfl (step .mult rfl h4)))))))))
  have h6 : arithTernary R (st ((p, .Literal x) :: r) e b) =
      (.err (.Unexpected (.Literal x) p), st r e b) := by
    unfold arithTernary
    exact bind_err h5
  have h7 : arithAssig R (st ((p, .Literal x) :: r) e b) =
      (.err (.Unexpected (.Literal x) p), st r e b) := by
    unfold arithAssig
    rw [bind_ok (skipWhitespace_noop hnb), assig_lookahead, if_neg]
    · exact h6
    · simp [mpAssig, TokStream.mpNext]
  show arithSubst _ _ = _
  have : ArithRec.fix (TokStream.len (st (bs ++ (p, Token.Literal x) :: r) e b : PSt AIter B).it + 1)
      = R := hR.symm
  rw [this]
  unfold arithSubst
  refine bind_err (LoopRun.loop (.err ?_))
  unfold arithSubstBody
  rw [bind_ok (skipWhitespace_eq hb hnb)]
  exact bind_err h7

/-- **C23.** A literal token is read as the number it denotes - hexadecimal after `0x`, octal after
`0`, else decimal - and only if that number fits into `isize`; every other literal is an error at
its position. -/
theorem C23_literal (s : PSt CIter B) (bs r : List PTok) (p : SourcePos) (x : Str)
    (hs : s.rest = bs ++ (p, .Literal x) :: r) (hb : Blanks bs) :
    (∀ n, Numeral x n → InRange n → NoBlank r →
      (∀ p t r', r = (p, t) :: r' → t ∉ operatorTokens) →
      Gives .arithmeticSubstitution s (.ok (.Literal n)) r s.b) ∧
    ((¬ ∃ n, Numeral x n ∧ InRange n) →
      Gives .arithmeticSubstitution s (.err (.Unexpected (.Literal x) p)) r s.b) := by
  constructor
  · intro n h1 h2 hr hop
    exact C22_arithmetic_complete s (bs ++ [(p, .Literal x)]) [] r _ (by simp [hs])
      (literal_ok bs r p x n hb h1 h2 _) .nil hr hop
  · intro h
    refine gives_of_eq (e := s.it.1.abs.endPos) ?_
    rw [hs]
    refine literal_err hb ?_
    cases hv : literalValue x with
    | none => rfl
    | some n => exact absurd ⟨n, (literalValue_iff _ _).1 hv⟩ h

/-- **C23.** A literal denotes at most one number. -/
theorem C23_numeral_unique (x : Str) (n m : Int) (h1 : Numeral x n) (h2 : Numeral x m)
    (hn : InRange n) (hm : InRange m) : n = m := by
  have h3 := (literalValue_iff x n).2 ⟨h1, hn⟩
  have h4 := (literalValue_iff x m).2 ⟨h2, hm⟩
  rw [h3] at h4
  injection h4

/-- `0x1f` is 31, `017` is 15, `9` is 9, `09` and `9223372036854775808` are no literals. -/
example : literalValue "0x1f".toList = some 31 ∧ literalValue "017".toList = some 15 ∧
    literalValue "9".toList = some 9 ∧ literalValue "09".toList = none ∧
    literalValue "9223372036854775808".toList = none ∧
    literalValue "9223372036854775807".toList = some 9223372036854775807 := by
  decide +kernel

end
end Conch
