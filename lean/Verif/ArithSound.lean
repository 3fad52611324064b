import Verif.ArithFollow
/-!
# C22, first half: what the arithmetic parser returns is derivable

`Post m l e b Q`: if `m` succeeds on the tokens `l`, it consumed a prefix `u` of them, left the
builder alone, and `Q u a r` holds of its result `a` and the tokens `r` that are left.
-/
namespace Conch
open Spec

section
variable {B : Builder} {α β σ : Type} {e : SourcePos} {b : B.State}

def Post (m : P AIter B α) (l : List PTok) (e : SourcePos) (b : B.State)
    (Q : List PTok → α → List PTok → Prop) : Prop :=
  ∀ a s', m (st l e b) = (.ok a, s') → ∃ u r, l = u ++ r ∧ s' = st r e b ∧ Q u a r

theorem post_bind {m : P AIter B α} {f : α → P AIter B β} {l : List PTok}
    {Q1 : List PTok → α → List PTok → Prop} {Q : List PTok → β → List PTok → Prop} (h : Post m l e b Q1)
    (h' : ∀ u r x, l = u ++ r → Q1 u x r → Post (f x) r e b (fun v => Q (u ++ v))) :
    Post (m >>= f) l e b Q := by
  intro a s' heq
  change P.bind m f _ = _ at heq
  unfold P.bind at heq
  cases hm : m (st l e b) with
  | mk z s1 =>
    rw [hm] at heq
    cases z with
    | ok x =>
      obtain ⟨u, r, h1, h2, h3⟩ := h x s1 hm
      subst h2
      obtain ⟨v, r', h4, h5, h6⟩ := h' u r x h1 h3 a s' heq
      exact ⟨u ++ v, r', by rw [h1, h4, List.append_assoc], h5, h6⟩
    | err => cases heq
    | panic => cases heq
    | fuel => cases heq

theorem post_mono {m : P AIter B α} {l : List PTok} {Q Q' : List PTok → α → List PTok → Prop}
    (h : Post m l e b Q) (h' : ∀ u a r, Q u a r → Q' u a r) : Post m l e b Q' := by
  intro a s' heq
  obtain ⟨u, r, h1, h2, h3⟩ := h a s' heq
  exact ⟨u, r, h1, h2, h' _ _ _ h3⟩

theorem post_pure {l : List PTok} {a : α} {Q : List PTok → α → List PTok → Prop} (h : Q [] a l) :
    Post (pure a) l e b Q := by
  intro a' s' heq
  cases heq
  exact ⟨[], l, rfl, rfl, h⟩

theorem post_fail {l : List PTok} {x} {Q : List PTok → α → List PTok → Prop} : Post (fail x) l e b Q := by
  intro a' s' heq; cases heq

theorem post_panic {l : List PTok} {x} {Q : List PTok → α → List PTok → Prop} :
    Post (panicAt x) l e b Q := by
  intro a' s' heq; cases heq

theorem post_fuel {l : List PTok} {Q : List PTok → α → List PTok → Prop} :
    Post outOfFuel l e b Q := by
  intro a' s' heq; cases heq

theorem post_unexpected {l : List PTok} {Q : List PTok → α → List PTok → Prop} :
    Post unexpected l e b Q := by
  intro a' s' heq
  cases l <;> cases heq

theorem post_peek {f : Option Token → P AIter B β} {l : List PTok} {Q : List PTok → β → List PTok → Prop} :
    Post (peek >>= f) l e b Q = Post (f (l.head?.map (·.2))) l e b Q := rfl

theorem post_next {f : Option Token → P AIter B β} {x} {l : List PTok} {Q : List PTok → β → List PTok → Prop}
    (h : Post (f (some x.2)) l e b (fun v => Q (x :: v))) : Post (next >>= f) (x :: l) e b Q := by
  intro a s' heq
  rw [next_bind_cons] at heq
  obtain ⟨u, r, h1, h2, h3⟩ := h a s' heq
  exact ⟨x :: u, r, by rw [h1]; rfl, h2, h3⟩

theorem post_next_nil {f : Option Token → P AIter B β} {Q : List PTok → β → List PTok → Prop}
    (h : Post (f none) [] e b Q) : Post (next >>= f) [] e b Q := h

theorem post_skip {f : Unit → P AIter B β} {l : List PTok} {Q : List PTok → β → List PTok → Prop}
    (h : ∀ bs r, l = bs ++ r → Blanks bs → NoBlank r → Post (f ()) r e b (fun v => Q (bs ++ v))) :
    Post (skipWhitespace >>= f) l e b Q := by
  obtain ⟨bs, r, rfl, hb, hr⟩ := blank_split l
  intro a s' heq
  rw [bind_ok (skipWhitespace_eq hb hr)] at heq
  obtain ⟨u, r', h1, h2, h3⟩ := h bs r rfl hb hr a s' heq
  exact ⟨bs ++ u, r', by rw [h1, List.append_assoc], h2, h3⟩

theorem post_lookahead {g : TokStream.MP AIter → α × TokStream.MP AIter} {f : α → P AIter B β}
    {l : List PTok} {Q : List PTok → β → List PTok → Prop} (hg : (g ⟨⟨l, e⟩, l.map (·.2)⟩).2.it = ⟨l, e⟩)
    (h : Post (f (g ⟨⟨l, e⟩, l.map (·.2)⟩).1) l e b Q) : Post (lookahead g >>= f) l e b Q := by
  intro a s' heq
  rw [lookahead_bind hg] at heq
  exact h a s' heq

theorem post_ite {c : Prop} [Decidable c] {m m' : P AIter B α} {l : List PTok}
    {Q : List PTok → α → List PTok → Prop} (h1 : c → Post m l e b Q) (h2 : ¬ c → Post m' l e b Q) :
    Post (if c then m else m') l e b Q := by
  split
  · exact h1 ‹_›
  · exact h2 ‹_›

theorem post_eatMaybe {f : Bool → P AIter B β} {t : Token} {l : List PTok}
    {Q : List PTok → β → List PTok → Prop}
    (h1 : ∀ p r, l = (p, t) :: r → Post (f true) r e b (fun v => Q ((p, t) :: v)))
    (h2 : (∀ p r, l ≠ (p, t) :: r) → Post (f false) l e b Q) :
    Post (eatMaybe t >>= f) l e b Q := by
  by_cases h : l.head?.map (·.2) = some t
  · cases l with
    | nil => simp at h
    | cons x l =>
      obtain ⟨p, t'⟩ := x
      simp at h
      subst h
      intro a s' heq
      rw [eatMaybe_bind_yes] at heq
      obtain ⟨u, r, h3, h4, h5⟩ := h1 p l rfl a s' heq
      exact ⟨(p, t') :: u, r, by rw [h3]; rfl, h4, h5⟩
  · intro a s' heq
    rw [eatMaybe_bind_no _ h] at heq
    exact h2 (by rintro p r rfl; simp at h) a s' heq

theorem post_eat {f : Unit → P AIter B β} {t : Token} {l : List PTok} {Q : List PTok → β → List PTok → Prop}
    (h1 : ∀ p r, l = (p, t) :: r → Post (f ()) r e b (fun v => Q ((p, t) :: v))) :
    Post (eat t >>= f) l e b Q := by
  refine post_bind (Q1 := fun u _ _ => ∃ p, u = [(p, t)]) ?_ ?_
  · unfold eat
    refine post_eatMaybe ?_ ?_
    · rintro p r rfl
      exact post_pure ⟨p, rfl⟩
    · exact fun _ => post_unexpected
  · rintro u r x heq ⟨p, rfl⟩
    exact h1 p r heq

/-- What an iteration ensures. -/
def StepQ (I : σ → List PTok → List PTok → Prop) (Q : List PTok → α → List PTok → Prop)
    (w : List PTok) : Step σ α → List PTok → Prop
  | .cont y, r => I y w r
  | .done a, r => Q w a r

theorem post_loopN {body : σ → P AIter B (Step σ α)} {Q : List PTok → α → List PTok → Prop}
    (I : σ → List PTok → List PTok → Prop)
    (hb : ∀ x u l, I x u l → Post (body x) l e b (fun v => StepQ I Q (u ++ v))) (n : Nat) :
    ∀ x u l, I x u l → Post (loopN body n x) l e b (fun v => Q (u ++ v)) := by
  induction n with
  | zero => intro x u l _; exact post_fuel
  | succ n ih =>
    intro x u l h
    rw [loopN]
    refine post_bind (hb x u l h) ?_
    rintro v r (y | a) rfl hs
    · have := ih y (u ++ v) r hs
      simp only [List.append_assoc] at this
      exact this
    · exact post_pure (by rw [List.append_nil]; exact hs)

theorem post_loop {body : σ → P AIter B (Step σ α)} {x : σ} {l : List PTok}
    {Q : List PTok → α → List PTok → Prop}
    (I : σ → List PTok → List PTok → Prop) (h : I x [] l)
    (hb : ∀ x u l, I x u l → Post (body x) l e b (fun v => StepQ I Q (u ++ v))) : Post (loop body x) l e b Q := by
  have := post_loopN I hb (l.length + 2) x [] l h
  exact this

end

/-! ## The arithmetic parser -/

section
variable {B : Builder} {e : SourcePos} {b : B.State}

/-- What is left after an expression: neither something that would have been read as part of it nor
blanks, unless the blanks are left to the caller. -/
def Tail (lvl : Level) (v : List PTok) (a : DefaultArithmetic) (r : List PTok) : Prop :=
  Follow lvl (EndsVar v a) r ∧ (lrank lvl ≤ 13 ∨ EndsVar v a → NoBlank r)

/-- An expression followed by blanks. -/
def ExprB (lvl : Level) (u : List PTok) (a : DefaultArithmetic) (r : List PTok) : Prop :=
  ∃ v bs, u = v ++ bs ∧ Blanks bs ∧ Expr .munch lvl v a ∧ Tail lvl v a r

theorem Tail.ev {lvl : Level} {v w : List PTok} {a c : DefaultArithmetic} {r : List PTok}
    (h : Tail lvl v a r) (he : EndsVar w c → EndsVar v a) : Tail lvl w c r :=
  ⟨h.1.ev he, fun h' => h.2 (h'.imp id he)⟩

theorem orank_le {t : Token} {k : Nat} (h : orank t = some k) : k ≤ 12 := by
  cases t <;> simp [orank] at h <;> omega

theorem Tail.high {lvl : Level} (hl : 14 ≤ lrank lvl) {v : List PTok} {a : DefaultArithmetic}
    {r : List PTok} (h : EndsVar v a → NoBlank r ∧ ¬ Doubled r) : Tail lvl v a r :=
  ⟨⟨fun _ _ _ _ hk => by have := orank_le hk; omega, fun he => (h he).2, fun _ => by omega⟩,
    fun he => (h (he.resolve_left (by omega))).1⟩

theorem Tail.none {lvl : Level} (hl : 14 ≤ lrank lvl) {v : List PTok} {a : DefaultArithmetic}
    {r : List PTok} (h : ¬ EndsVar v a) : Tail lvl v a r := .high hl fun he => absurd he h

theorem Tail.unary {v : List PTok} {a : DefaultArithmetic} {r : List PTok}
    (h : Tail .primary v a r) : Tail .unary v a r :=
  .high (by simp [lrank]) fun he => ⟨h.2 (.inr he), h.1.2.1 he⟩

structure SoundRec (R : ArithRec AIter B) (e : SourcePos) (b : B.State) : Prop where
  subst : ∀ l, Post R.subst l e b (ExprB .seq)
  assig : ∀ l, Post R.assig l e b (ExprB .assign)
  ternary : ∀ l, Post R.ternary l e b (ExprB .ternary)
  pow : ∀ l, Post R.pow l e b (ExprB .pow)
  unary : ∀ l, Post R.unary l e b (ExprB .unary)

theorem post_arithVar (l : List PTok) : Post (arithVar (I := AIter)) l e b
    (fun u x _ => ∃ bs vs, u = bs ++ vs ∧ Blanks bs ∧ VarRef vs x) := by
  unfold arithVar
  refine post_skip fun bs r _ hb _ => ?_
  refine post_eatMaybe ?_ ?_
  · rintro p r rfl
    rw [post_peek]
    rcases r with _ | ⟨⟨q, t⟩, r⟩
    · exact post_unexpected
    · cases t <;> first
        | exact post_unexpected
        | (refine post_next ?_
           exact post_pure ⟨bs, _, rfl, hb, .dollar⟩)
  · intro _
    rw [post_peek]
    rcases r with _ | ⟨⟨q, t⟩, r⟩
    · exact post_unexpected
    · cases t <;> first
        | exact post_unexpected
        | (refine post_next ?_
           exact post_pure ⟨bs, _, rfl, hb, .name⟩)

theorem mpPostIncr_it_abs (m : AMultipeek) : (mpPostIncr (I := AIter) m).2.it = m.it := by
  obtain ⟨it, ts⟩ := m
  unfold mpPostIncr
  rcases ts with _ | ⟨t, _ | ⟨u, ts⟩⟩ <;> first | rfl | (cases t <;> rfl)

theorem mpPostIncr_val (it : AIter) (r : List PTok) :
    (mpPostIncr (I := AIter) (AMultipeek.mk it (r.map (·.2)))).1 = true ↔
      ∃ p q r', r = (p, .Plus) :: (q, .Plus) :: r' ∨ r = (p, .Dash) :: (q, .Dash) :: r' := by
  unfold mpPostIncr
  simp only [TokStream.mpNext]
  rcases r with _ | ⟨⟨p, t⟩, _ | ⟨⟨q, t'⟩, r⟩⟩
  · simp
  · cases t <;> simp
  · cases t <;> simp
    all_goals grind

theorem mpDoubleStar_val (it : AIter) (r : List PTok) :
    (mpDoubleStar (I := AIter) (AMultipeek.mk it (r.map (·.2)))).1 = true ↔
      ∃ p q r', r = (p, .Star) :: (q, .Star) :: r' := by
  unfold mpDoubleStar
  simp only [TokStream.mpNext]
  rcases r with _ | ⟨⟨p, t⟩, _ | ⟨⟨q, t'⟩, r⟩⟩
  · simp
  · by_cases h : t = .Star <;> simp [h]
  · by_cases h : t = .Star <;> by_cases h' : t' = .Star <;> simp [h, h']

theorem post_arithVarPost (l : List PTok) :
    Post (arithVarPost (I := AIter)) l e b (ExprB .primary) := by
  unfold arithVarPost
  refine post_bind (post_arithVar l) ?_
  rintro _ r x rfl ⟨bs, vs, rfl, hb, hv⟩
  refine post_skip fun bs' r' _ hb' hn => ?_
  refine post_lookahead (mpPostIncr_it_abs _) ?_
  refine post_ite (fun _ => ?_) fun hd => ?_
  · rw [post_peek]
    rcases r' with _ | ⟨⟨q, t⟩, r⟩
    · exact post_unexpected
    · cases t <;> first
        | exact post_unexpected
        | skip
      · refine post_next (post_eat ?_)
        rintro q' r' rfl
        have := Expr.postDecr (sep := .munch) (p := q) (q := q') hb hv hb'
        exact post_pure ⟨_, [], by simp, .nil, this,
          .none (by simp [lrank]) fun h => by simp [EndsVar, lastVar] at h⟩
      · refine post_next (post_eat ?_)
        rintro q' r' rfl
        have := Expr.postIncr (sep := .munch) (p := q) (q := q') hb hv hb'
        exact post_pure ⟨_, [], by simp, .nil, this,
          .none (by simp [lrank]) fun h => by simp [EndsVar, lastVar] at h⟩
  · refine post_pure ⟨_, bs', by simp, hb', .var hb hv, .high (by simp [lrank]) fun _ => ⟨hn, ?_⟩⟩
    rw [mpPostIncr_val] at hd
    intro hd'
    apply hd
    rcases r' with _ | ⟨⟨p, t⟩, _ | ⟨⟨q, t'⟩, r'⟩⟩
    · exact hd'.elim
    · exact hd'.elim
    · obtain ⟨rfl, rfl | rfl⟩ := hd'
      · exact ⟨_, _, _, .inl rfl⟩
      · exact ⟨_, _, _, .inr rfl⟩

theorem primary_blanks {sep : Signs} {bs v : List PTok} {a : DefaultArithmetic}
    (hb : Blanks bs) (h : Expr sep .primary v a) : Expr sep .primary (bs ++ v) a := by
  cases h with
  | tighter h => exact absurd rfl h
  | bin h => simp [binOps] at h
  | @postIncr _ p q _ _ _ h1 h2 h3 =>
    have := Expr.postIncr (sep := sep) (p := p) (q := q) (blanks_append hb h1) h2 h3
    simp only [List.append_assoc] at this ⊢; exact this
  | @postDecr _ p q _ _ _ h1 h2 h3 =>
    have := Expr.postDecr (sep := sep) (p := p) (q := q) (blanks_append hb h1) h2 h3
    simp only [List.append_assoc] at this ⊢; exact this
  | var h1 h2 =>
    have := Expr.var (sep := sep) (blanks_append hb h1) h2
    simp only [List.append_assoc] at this ⊢; exact this
  | @literal _ p _ _ h1 h2 h3 =>
    have := Expr.literal (sep := sep) (p := p) (blanks_append hb h1) h2 h3
    simp only [List.append_assoc] at this ⊢; exact this
  | @paren _ p _ _ _ q h1 h2 h3 =>
    have := Expr.paren (sep := sep) (p := p) (q := q) (blanks_append hb h1) h2 h3
    simp only [List.append_assoc, List.cons_append] at this ⊢; exact this

/-- Blanks may stand before an expression of any level. -/
theorem expr_blanks {bs : List PTok} (hb : Blanks bs) :
    ∀ {lvl v} {a : DefaultArithmetic}, Expr .munch lvl v a → Expr .munch lvl (bs ++ v) a := by
  intro lvl v a h
  refine Expr.rec (motive_1 := fun lvl v a _ => Expr .munch lvl (bs ++ v) a)
    (motive_2 := fun v as _ => Items .munch (bs ++ v) as)
    ?_ ?_ ?_ ?_ ?_ ?_ ?_ ?_ ?_ ?_ ?_ ?_ ?_ ?_ ?_ ?_ ?_ ?_ ?_ ?_ ?_ ?_ h
  · intro lvl u a h1 _ ih; exact .tighter h1 ih
  · intro u as _ h2 ih; exact .seq ih h2
  · intro bs' vs x ws p u a h1 h2 h3 h4 _
    have := Expr.assign (p := p) (blanks_append hb h1) h2 h3 h4
    simpa only [List.append_assoc] using this
  · intro bs' vs x ws p q op mk u a h1 h2 h3 h4 h5 _
    have := Expr.compound (p := p) (q := q) (blanks_append hb h1) h2 h3 h4 h5
    simpa only [List.append_assoc] using this
  · intro u a bs1 p v b bs2 q w c _ h2 h3 h4 h5 ih _ _
    have := Expr.ternary (p := p) (q := q) ih h2 h3 h4 h5
    simpa only [List.append_assoc] using this
  · intro lvl u a bs1 op mk v b h1 h2 h3 h4 h5 ih _
    have := Expr.bin h1 ih h3 h4 (fun h he => h5 h ((endsVar_append (expr_ne h2) rfl).1 he))
    simpa only [List.append_assoc] using this
  · intro u a bs1 p q v b _ h2 h3 ih _
    have := Expr.pow (p := p) (q := q) ih h2 h3
    simpa only [List.append_assoc] using this
  · intro bs1 p u a h1 h2 _
    have := Expr.not (p := p) (blanks_append hb h1) h2
    simpa only [List.append_assoc] using this
  · intro bs1 p u a h1 h2 _
    have := Expr.bitNot (p := p) (blanks_append hb h1) h2
    simpa only [List.append_assoc] using this
  · intro bs1 p u a h1 h2 h3 _
    have := Expr.plus (p := p) (blanks_append hb h1) h2 h3
    simpa only [List.append_assoc] using this
  · intro bs1 p u a h1 h2 h3 _
    have := Expr.minus (p := p) (blanks_append hb h1) h2 h3
    simpa only [List.append_assoc] using this
  · intro bs1 p q u a h1 h2 _
    have := Expr.plusMinus (p := p) (q := q) (blanks_append hb h1) h2
    simpa only [List.append_assoc] using this
  · intro bs1 p q u a h1 h2 _
    have := Expr.minusPlus (p := p) (q := q) (blanks_append hb h1) h2
    simpa only [List.append_assoc] using this
  · intro bs1 p q bs2 vs x h1 h2 h3
    have := Expr.preIncr (sep := .munch) (p := p) (q := q) (blanks_append hb h1) h2 h3
    simpa only [List.append_assoc, List.cons_append] using this
  · intro bs1 p q bs2 vs x h1 h2 h3
    have := Expr.preDecr (sep := .munch) (p := p) (q := q) (blanks_append hb h1) h2 h3
    simpa only [List.append_assoc, List.cons_append] using this
  · intro bs1 p q bs2 vs x h1 h2 h3
    exact primary_blanks hb (.postIncr h1 h2 h3)
  · intro bs1 p q bs2 vs x h1 h2 h3
    exact primary_blanks hb (.postDecr h1 h2 h3)
  · intro bs1 vs x h1 h2
    exact primary_blanks hb (.var h1 h2)
  · intro bs1 p s n h1 h2 h3
    exact primary_blanks hb (.literal h1 h2 h3)
  · intro bs1 p u a bs2 q h1 h2 h3 _
    exact primary_blanks hb (.paren h1 h2 h3)
  · intro u a _ ih; exact .one ih
  · intro u a bs1 p v as _ h2 h3 ih _
    have := Items.cons (p := p) ih h2 h3
    simpa only [List.append_assoc] using this

theorem exprB_anyBlanks {lvl : Level} {bs v : List PTok} {a : DefaultArithmetic} {r : List PTok}
    (hb : Blanks bs) (h : ExprB lvl v a r) : ExprB lvl (bs ++ v) a r := by
  obtain ⟨v, bs', rfl, hb', hv, ht⟩ := h
  exact ⟨bs ++ v, bs', by simp, hb', expr_blanks hb hv,
    ht.ev (endsVar_append (expr_ne hv) rfl).1⟩

variable {R : ArithRec AIter B}

theorem post_arithPostIncr (h : SoundRec R e b) (l : List PTok) :
    Post (arithPostIncr R) l e b (ExprB .primary) := by
  unfold arithPostIncr
  refine post_skip fun bs r _ hb hr => ?_
  have hvar : Post (arithVarPost (I := AIter)) r e b (fun v => ExprB .primary (bs ++ v)) := by
    refine post_mono (post_arithVarPost r) ?_
    exact fun v a r => exprB_anyBlanks hb
  rw [post_peek]
  rcases r with _ | ⟨⟨p, t⟩, r⟩
  · exact hvar
  · cases t <;> first
      | exact hvar
      | skip
    · refine post_next ?_
      refine post_bind (h.subst _) ?_
      rintro _ r' a rfl ⟨v, bs', rfl, hb', hv, _⟩
      refine post_skip fun bs2 r2 _ hb2 _ => ?_
      refine post_eat ?_
      rintro q r3 rfl
      refine post_pure ⟨_, [], ?_, .nil, .paren (p := p) (q := q) hb hv (blanks_append hb' hb2),
        .none (by simp [lrank]) (not_endsVar (by simp))⟩
      simp
    · rename_i s _
      simp only [List.head?_cons, Option.map_some]
      cases hn : literalValue s with
      | none => exact hvar
      | some n =>
        refine post_next ?_
        obtain ⟨h1, h2⟩ := (literalValue_iff _ _).1 hn
        exact post_pure ⟨_, [], by simp, .nil, .literal (p := p) hb h1 h2,
          .none (by simp [lrank]) (not_endsVar (by simp))⟩

theorem post_arithUnary (h : SoundRec R e b) (l : List PTok) :
    Post (arithUnary R) l e b (ExprB .unary) := by
  unfold arithUnary
  refine post_skip fun bs r _ hb hr => ?_
  have hprim : Post (arithPostIncr R) r e b (fun v => ExprB .unary (bs ++ v)) := by
    refine post_mono (post_arithPostIncr h r) ?_
    rintro v a r ⟨v, bs', rfl, hb', hv, ht⟩
    exact exprB_anyBlanks hb ⟨v, bs', rfl, hb', .tighter (by simp) hv, ht.unary⟩
  have un : ∀ {p : SourcePos} {r : List PTok} (t : Token)
      (mk : DefaultArithmetic → DefaultArithmetic) (_ : ∀ a, lastVar (mk a) = lastVar a)
      (_ : ∀ v a w, r = v ++ w → Expr .munch .unary v a →
        Expr .munch .unary (bs ++ (p, t) :: v) (mk a)),
      Post (R.unary >>= fun e => pure (mk e)) r e b (fun v => ExprB .unary (bs ++ (p, t) :: v)) := by
    intro p r t mk hl hmk
    refine post_bind (h.unary _) ?_
    rintro _ r' a rfl ⟨v, bs', rfl, hb', hv, ht⟩
    refine post_pure ⟨_, bs', by simp, hb', hmk _ _ (bs' ++ r') (by simp) hv, ht.ev ?_⟩
    exact (endsVar_op (expr_ne hv) (hl _)).1
  have nosign : ∀ {q : SourcePos} {t : Token} {r v w : List PTok} {a : DefaultArithmetic},
      (q, t) :: r = v ++ w → Expr .munch .unary v a → t ≠ .Plus → t ≠ .Dash → NoSign v := by
    intro q t r v w a heq hv h1 h2 p x
    constructor
    · rintro rfl; injection heq with heq; injection heq with _ heq; exact h1 heq
    · rintro rfl; injection heq with heq; injection heq with _ heq; exact h2 heq
  have noexpr : ∀ {v w : List PTok} {a : DefaultArithmetic}, [] = v ++ w → ¬ Expr .munch .unary v a := by
    intro v w a heq hv
    exact expr_ne hv (by simpa using heq.symm : v = [] ∧ w = []).1
  rw [post_peek]
  rcases r with _ | ⟨⟨p, t⟩, r⟩
  · exact hprim
  · cases t <;> first
      | exact hprim
      | skip
    case Bang => exact post_next (un _ _ (by simp [lastVar]) fun v a _ _ hv => .not hb hv)
    case Dash =>
      refine post_next ?_
      rw [post_peek]
      rcases r with _ | ⟨⟨q, t⟩, r⟩
      · exact un _ _ (by simp [lastVar]) fun v a w heq hv => absurd hv (noexpr heq)
      · cases t <;> first
          | exact un _ _ (by simp [lastVar]) fun v a w heq hv =>
              .minus hb hv (nosign heq hv (by simp) (by simp))
          | skip
        · refine post_next (post_bind (post_arithVar _) ?_)
          rintro _ r' x rfl ⟨bs', vs, rfl, hb', hv⟩
          exact post_pure ⟨_, [], by simp, .nil, .preDecr (p := p) (q := q) hb hb' hv,
            .none (by simp [lrank]) fun h => by simp [EndsVar, lastVar] at h⟩
        · refine post_next (post_bind (h.unary _) ?_)
          rintro _ r' a rfl ⟨v, bs', rfl, hb', hv, ht⟩
          exact post_pure ⟨_, bs', by simp, hb', .minusPlus (p := p) (q := q) hb hv,
            ht.ev (endsVar_op2 (expr_ne hv) (by simp [lastVar])).1⟩
    case Plus =>
      refine post_next ?_
      rw [post_peek]
      rcases r with _ | ⟨⟨q, t⟩, r⟩
      · exact un _ _ (by simp [lastVar]) fun v a w heq hv => absurd hv (noexpr heq)
      · cases t <;> first
          | exact un _ _ (by simp [lastVar]) fun v a w heq hv =>
              .plus hb hv (nosign heq hv (by simp) (by simp))
          | skip
        · refine post_next (post_bind (h.unary _) ?_)
          rintro _ r' a rfl ⟨v, bs', rfl, hb', hv, ht⟩
          exact post_pure ⟨_, bs', by simp, hb', .plusMinus (p := p) (q := q) hb hv,
            ht.ev (endsVar_op2 (expr_ne hv) (by simp [lastVar])).1⟩
        · refine post_next (post_bind (post_arithVar _) ?_)
          rintro _ r' x rfl ⟨bs', vs, rfl, hb', hv⟩
          exact post_pure ⟨_, [], by simp, .nil, .preIncr (p := p) (q := q) hb hb' hv,
            .none (by simp [lrank]) fun h => by simp [EndsVar, lastVar] at h⟩
    case Tilde => exact post_next (un _ _ (by simp [lastVar]) fun v a _ _ hv => .bitNot hb hv)

theorem mpDoubleStar_it_abs (m : AMultipeek) : (mpDoubleStar (I := AIter) m).2.it = m.it := by
  obtain ⟨it, ts⟩ := m
  unfold mpDoubleStar
  simp only [TokStream.mpNext]
  rcases ts with _ | ⟨t, _ | ⟨u, ts⟩⟩ <;> (try simp only) <;> split <;> rfl

/-- No blanks are left of no blanks. -/
theorem noBlank_blanks {bs r : List PTok} (hb : Blanks bs) (h : NoBlank (bs ++ r)) : bs = [] := by
  cases hb with
  | nil => rfl
  | ws _ => exact absurd rfl (h.1 _ _ _)
  | escaped _ => exact absurd rfl (h.2 _ _ _)

theorem post_arithPow (h : SoundRec R e b) (l : List PTok) :
    Post (arithPow R) l e b (ExprB .pow) := by
  unfold arithPow
  refine post_bind (post_arithUnary h l) ?_
  rintro _ r a rfl ⟨v, bs, rfl, hb, hv, ht⟩
  refine post_skip fun bs' r' hr hb' hn => ?_
  refine post_lookahead (mpDoubleStar_it_abs _) ?_
  refine post_ite (fun _ => ?_) fun hd => ?_
  · refine post_eat ?_
    rintro p r1 rfl
    refine post_eat ?_
    rintro q r2 rfl
    refine post_bind (h.pow _) ?_
    rintro _ r3 c rfl ⟨w, bs2, rfl, hb2, hw, htw⟩
    exact post_pure ⟨_, bs2, by simp, hb2, .pow (p := p) (q := q) hv (blanks_append hb hb') hw,
      htw.ev (endsVar_op2 (expr_ne hw) (by simp [lastVar])).1⟩
  · refine post_pure ⟨v, bs ++ bs', by simp, blanks_append hb hb', .tighter (by simp) hv, ⟨?_, ?_, ?_⟩,
      fun _ => hn⟩
    · intro _ _ _ k hk
      have := orank_le hk
      simp [lrank]; omega
    · intro hev
      subst hr
      obtain rfl := noBlank_blanks hb' (ht.2 (.inr hev))
      exact ht.1.2.1 hev
    · intro _ hs
      rw [mpDoubleStar_val] at hd
      apply hd
      rcases r' with _ | ⟨⟨p, t⟩, _ | ⟨⟨q, t'⟩, r'⟩⟩
      · exact hs.elim
      · exact hs.elim
      · obtain ⟨rfl, rfl⟩ := hs
        exact ⟨_, _, _, rfl⟩

/-- The invariant of the loops of left-associative operators: an expression of the level, and what
follows can only continue it. -/
def BinInv (lvl : Level) (u : List PTok) (a : DefaultArithmetic) (r : List PTok) : Prop :=
  ∃ v bs, u = v ++ bs ∧ Blanks bs ∧ Expr .munch lvl v a ∧ Tail lvl.tighter v a r

theorem ExprB.inv {lvl : Level} (hl : lvl ≠ .primary) {u : List PTok} {a : DefaultArithmetic}
    {r : List PTok} (h : ExprB lvl.tighter u a r) : BinInv lvl u a r := by
  obtain ⟨v, bs, rfl, hb, hv, ht⟩ := h
  exact ⟨v, bs, rfl, hb, .tighter hl hv, ht⟩

theorem bin_rank {lvl : Level} {x} (h : x ∈ binOps lvl) :
    lrank lvl.tighter = lrank lvl + 1 ∧ lrank lvl ≤ 12 := by
  cases lvl <;> simp [binOps] at h <;> simp [lrank, Level.tighter]

/-- The loop ends: what follows is no operator of the level. -/
theorem BinInv.done {lvl : Level} {u : List PTok} {a : DefaultArithmetic} {r : List PTok}
    (h : BinInv lvl u a r) (hl : lrank lvl.tighter = lrank lvl + 1 ∧ lrank lvl ≤ 12)
    (hr : ∀ x r', r = x :: r' → orank x.2 ≠ some (lrank lvl)) : ExprB lvl u a r := by
  obtain ⟨v, bs, rfl, hb, hv, ht⟩ := h
  refine ⟨v, bs, rfl, hb, hv, ⟨?_, ht.1.2.1, fun _ => ht.1.2.2 (by omega)⟩, fun _ => ht.2 (.inl (by omega))⟩
  intro x r' heq k hk
  have h1 := ht.1.1 x r' heq k hk
  have h2 : k ≠ lrank lvl := by rintro rfl; exact hr x r' heq hk
  omega

theorem BinInv.noBlank {lvl : Level} {u : List PTok} {a : DefaultArithmetic} {r : List PTok}
    (h : BinInv lvl u a r) (hl : lrank lvl.tighter = lrank lvl + 1 ∧ lrank lvl ≤ 12) : NoBlank r := by
  obtain ⟨v, bs, rfl, hb, hv, ht⟩ := h
  exact ht.2 (.inl (by omega))

/-- The loop goes on with an operator and its right operand. -/
theorem BinInv.step {lvl : Level} {u op w r : List PTok} {a c : DefaultArithmetic} {mk : BinMk}
    (hop : (op.map (·.2), mk) ∈ binOps lvl)
    (h : BinInv lvl u a (op ++ w ++ r)) (hw : ExprB lvl.tighter w c r) :
    BinInv lvl (u ++ (op ++ w)) (mk a c) r := by
  obtain ⟨v, bs, rfl, hb, hv, ht⟩ := h
  obtain ⟨w, bs2, rfl, hb2, hw, htw⟩ := hw
  refine ⟨v ++ bs ++ op ++ w, bs2, by simp, hb2, .bin hop hv hb hw ?_, htw.ev ?_⟩
  · rintro rfl hev x hx p r' rfl
    have := ht.1.2.1 hev
    simp [binOps] at hop
    rcases hop with ⟨⟨q, rfl⟩, _⟩ | ⟨⟨q, rfl⟩, _⟩
    · simp at hx; subst hx; exact this ⟨rfl, .inl rfl⟩
    · simp at hx; subst hx; exact this ⟨rfl, .inr rfl⟩
  · exact (endsVar_append (expr_ne hw) (lastVar_bin hop _ _)).1

/-- One iteration of a loop: an operator and its right operand. -/
theorem post_binStep {lvl : Level} {sub : P AIter B DefaultArithmetic} {mk : BinMk}
    {op : List PTok} {u v r : List PTok} {a : DefaultArithmetic}
    (hsub : ∀ l, Post sub l e b (ExprB lvl.tighter)) (hop : (op.map (·.2), mk) ∈ binOps lvl)
    (h : BinInv lvl (u ++ v) a (op ++ r)) :
    Post (sub >>= fun rhs => pure (.cont (mk a rhs)) :
        P AIter B (Step DefaultArithmetic DefaultArithmetic)) r e b
      (fun w => StepQ (fun a v => BinInv lvl (u ++ v) a) (fun v => ExprB lvl (u ++ v))
        (v ++ (op ++ w))) := by
  refine post_bind (hsub _) ?_
  rintro w r2 c rfl hw
  refine post_pure (show BinInv _ _ _ _ from ?_)
  have := BinInv.step (w := w) (r := r2) hop (by rw [List.append_assoc]; exact h) hw
  simpa only [List.append_assoc, List.append_nil] using this

theorem post_binDone {lvl : Level} {u v r : List PTok} {a : DefaultArithmetic}
    (h : BinInv lvl (u ++ v) a r) (hl : lrank lvl.tighter = lrank lvl + 1 ∧ lrank lvl ≤ 12)
    (hr : ∀ x r', r = x :: r' → orank x.2 ≠ some (lrank lvl)) :
    Post (pure (.done a) : P AIter B (Step DefaultArithmetic DefaultArithmetic)) r e b
      (fun w => StepQ (fun a v => BinInv lvl (u ++ v) a) (fun v => ExprB lvl (u ++ v))
        (v ++ w)) := by
  refine post_pure (show ExprB _ _ _ _ from ?_)
  rw [List.append_nil]
  exact h.done hl hr

/-- A loop of left-associative operators. -/
theorem post_binLoop {lvl : Level} (hl : lvl ≠ .primary)
    (hlr : lrank lvl.tighter = lrank lvl + 1 ∧ lrank lvl ≤ 12)
    {sub : P AIter B DefaultArithmetic} (hsub : ∀ l, Post sub l e b (ExprB lvl.tighter))
    {body : DefaultArithmetic → Option Token → P AIter B (Step DefaultArithmetic DefaultArithmetic)}
    (hbody : ∀ a u v r, BinInv lvl (u ++ v) a r →
      Post (body a (r.head?.map (·.2))) r e b
        (fun w => StepQ (fun a v => BinInv lvl (u ++ v) a) (fun v => ExprB lvl (u ++ v)) (v ++ w)))
    (l : List PTok) :
    Post (do
      let expr ← sub
      loop (fun a => do
        skipWhitespace
        let t ← peek
        body a t) expr) l e b (ExprB lvl) := by
  refine post_bind (hsub l) ?_
  rintro u r a rfl ha
  refine post_loop (I := fun a v => BinInv lvl (u ++ v) a) (by simpa using ha.inv hl) ?_
  intro a v l h
  refine post_skip fun bs' r' hr hb' _ => ?_
  subst hr
  obtain rfl := noBlank_blanks hb' (h.noBlank hlr)
  rw [post_peek]
  exact hbody a u v _ h

theorem post_arithBin {lvl : Level} (hl : lvl ≠ .primary)
    (hlr : lrank lvl.tighter = lrank lvl + 1 ∧ lrank lvl ≤ 12) {sub : P AIter B DefaultArithmetic}
    {op : Token → Option BinMk} (hsub : ∀ l, Post sub l e b (ExprB lvl.tighter))
    (hop : ∀ t mk, op t = some mk → ([t], mk) ∈ binOps lvl)
    (hno : ∀ t, op t = none → orank t ≠ some (lrank lvl)) (l : List PTok) :
    Post (arithBin sub op) l e b (ExprB lvl) := by
  unfold arithBin arithBinBody
  refine post_binLoop hl hlr hsub ?_ l
  intro a u v r h
  rcases r with _ | ⟨⟨p, t⟩, r⟩
  · exact post_binDone h hlr (by simp)
  · simp only [List.head?_cons, Option.map_some]
    cases ho : op t with
    | none => exact post_binDone h hlr (by rintro x r' heq; cases heq; exact hno t ho)
    | some mk => exact post_next (post_binStep (op := [(p, t)]) hsub (hop t mk ho) h)

theorem post_arithMult (h : SoundRec R e b) (l : List PTok) :
    Post (arithMult R) l e b (ExprB .mult) :=
  post_arithBin (by simp) (by decide) (post_arithPow h)
    (fun t mk ho => by cases t <;> simp_all [multOp, binOps])
    (fun t ho => by cases t <;> simp_all [multOp, orank, lrank]) l

theorem post_arithAdd (h : SoundRec R e b) (l : List PTok) :
    Post (arithAdd R) l e b (ExprB .add) :=
  post_arithBin (by simp) (by decide) (post_arithMult h)
    (fun t mk ho => by cases t <;> simp_all [addOp, binOps])
    (fun t ho => by cases t <;> simp_all [addOp, orank, lrank]) l

theorem post_arithShift (h : SoundRec R e b) (l : List PTok) :
    Post (arithShift R) l e b (ExprB .shift) :=
  post_arithBin (by simp) (by decide) (post_arithAdd h)
    (fun t mk ho => by cases t <;> simp_all [shiftOp, binOps])
    (fun t ho => by cases t <;> simp_all [shiftOp, orank, lrank]) l

theorem post_arithIneq (h : SoundRec R e b) (l : List PTok) :
    Post (arithIneq R) l e b (ExprB .rel) := by
  unfold arithIneq arithIneqBody
  refine post_binLoop (by simp) (by decide) (post_arithShift h) ?_ l
  intro a u v r hi
  rcases r with _ | ⟨⟨p, t⟩, r⟩
  · exact post_binDone hi (by decide) (by simp)
  · cases t <;> first
      | exact post_binDone hi (by decide) (by rintro x r' heq; cases heq; simp [orank, lrank])
      | skip
    · refine post_next (post_eatMaybe ?_ ?_)
      · rintro q r2 rfl
        exact post_binStep (lvl := .rel) (mk := .LessEq) (op := [(p, .Less), (q, .Equals)])
          (post_arithShift h) (by simp [binOps]) hi
      · exact fun _ => post_binStep (lvl := .rel) (mk := .Less) (op := [(p, .Less)])
          (post_arithShift h) (by simp [binOps]) hi
    · refine post_next (post_eatMaybe ?_ ?_)
      · rintro q r2 rfl
        exact post_binStep (lvl := .rel) (mk := .GreatEq) (op := [(p, .Great), (q, .Equals)])
          (post_arithShift h) (by simp [binOps]) hi
      · exact fun _ => post_binStep (lvl := .rel) (mk := .Great) (op := [(p, .Great)])
          (post_arithShift h) (by simp [binOps]) hi

theorem post_arithEq (h : SoundRec R e b) (l : List PTok) :
    Post (arithEq R) l e b (ExprB .eq) := by
  unfold arithEq arithEqBody
  refine post_binLoop (by simp) (by decide) (post_arithIneq h) ?_ l
  intro a u v r hi
  rcases r with _ | ⟨⟨p, t⟩, r⟩
  · exact post_binDone hi (by decide) (by simp)
  · cases t <;> first
      | exact post_binDone hi (by decide) (by rintro x r' heq; cases heq; simp [orank, lrank])
      | skip
    · refine post_next (post_eat ?_)
      rintro q r2 rfl
      exact post_binStep (lvl := .eq) (mk := .NotEq) (op := [(p, .Bang), (q, .Equals)])
        (post_arithIneq h) (by simp [binOps]) hi
    · refine post_next (post_eat ?_)
      rintro q r2 rfl
      exact post_binStep (lvl := .eq) (mk := .Eq) (op := [(p, .Equals), (q, .Equals)])
        (post_arithIneq h) (by simp [binOps]) hi

theorem post_arithLogOr (h : SoundRec R e b) (l : List PTok) :
    Post (arithLogOr R) l e b (ExprB .or) := by
  have h1 := post_arithBin (lvl := .bitAnd) (op := bitAndOp) (by simp) (by decide) (post_arithEq h)
    (fun t mk ho => by cases t <;> simp_all [bitAndOp, binOps])
    (fun t ho => by cases t <;> simp_all [bitAndOp, orank, lrank])
  have h2 := post_arithBin (lvl := .bitXor) (op := bitXorOp) (by simp) (by decide) h1
    (fun t mk ho => by cases t <;> simp_all [bitXorOp, binOps])
    (fun t ho => by cases t <;> simp_all [bitXorOp, orank, lrank])
  have h3 := post_arithBin (lvl := .bitOr) (op := bitOrOp) (by simp) (by decide) h2
    (fun t mk ho => by cases t <;> simp_all [bitOrOp, binOps])
    (fun t ho => by cases t <;> simp_all [bitOrOp, orank, lrank])
  have h4 := post_arithBin (lvl := .and) (op := logAndOp) (by simp) (by decide) h3
    (fun t mk ho => by cases t <;> simp_all [logAndOp, binOps])
    (fun t ho => by cases t <;> simp_all [logAndOp, orank, lrank])
  exact post_arithBin (lvl := .or) (op := logOrOp) (by simp) (by decide) h4
    (fun t mk ho => by cases t <;> simp_all [logOrOp, binOps])
    (fun t ho => by cases t <;> simp_all [logOrOp, orank, lrank]) l

theorem post_arithTernary (h : SoundRec R e b) (l : List PTok) :
    Post (arithTernary R) l e b (ExprB .ternary) := by
  unfold arithTernary
  refine post_bind (post_arithLogOr h l) ?_
  rintro _ r a rfl ⟨u, bs, rfl, hb, hu, ht⟩
  refine post_skip fun bs' r' hr hb' hn => ?_
  subst hr
  obtain rfl := noBlank_blanks hb' (ht.2 (.inl (by decide)))
  refine post_eatMaybe ?_ ?_
  · rintro p r1 rfl
    refine post_bind (h.ternary _) ?_
    rintro _ r2 c rfl ⟨v, bs2, rfl, hb2, hv, _⟩
    refine post_skip fun bs3 r3 _ hb3 _ => ?_
    refine post_eat ?_
    rintro q r4 rfl
    refine post_bind (h.ternary _) ?_
    rintro _ r5 d rfl ⟨w, bs4, rfl, hb4, hw, htw⟩
    exact post_pure ⟨_, bs4, by simp, hb4, .ternary (p := p) (q := q) hu (blanks_append hb hb') hv
      (blanks_append hb2 hb3) hw, htw.ev (endsVar_op (expr_ne hw) (by simp [lastVar])).1⟩
  · intro hq
    refine post_pure ⟨u, bs ++ [], by simp, blanks_append hb hb', .tighter (by simp) hu,
      ⟨?_, ht.1.2.1, fun _ => ht.1.2.2 (by decide)⟩, fun _ => hn⟩
    rintro ⟨p, t⟩ r' rfl k hk
    have h1 := ht.1.1 _ _ rfl k hk
    have : k ≠ 2 := by
      rintro rfl
      cases t <;> simp [orank] at hk
      exact hq _ _ rfl
    simp [lrank] at h1 ⊢
    omega

/-! ### Assignments -/

theorem mpAssigOp_it_abs (n : Nat) (m : AMultipeek) : (mpAssigOp (I := AIter) n m).2.it = m.it := by
  induction n generalizing m with
  | zero => rfl
  | succ n ih =>
    obtain ⟨it, ts⟩ := m
    unfold mpAssigOp
    rcases ts with _ | ⟨t, ts⟩
    · rfl
    · simp only [TokStream.mpNext, List.head?_cons, List.tail_cons]
      repeat' split
      all_goals first
        | exact ih _
        | rfl

theorem mpAssig_it_abs (n : Nat) (m : AMultipeek) : (mpAssig (I := AIter) n m).2.it = m.it := by
  induction n generalizing m with
  | zero => rfl
  | succ n ih =>
    obtain ⟨it, ts⟩ := m
    unfold mpAssig
    rcases ts with _ | ⟨t, ts⟩
    · rfl
    · cases t <;> first
        | rfl
        | exact ih _
        | exact mpAssigOp_it_abs _ _

theorem post_skip_of {β : Type} {f : Unit → P AIter B β} {bs r : List PTok}
    {Q : List PTok → β → List PTok → Prop} (hb : Blanks bs) (hr : NoBlank r)
    (h : Post (f ()) r e b (fun v => Q (bs ++ v))) :
    Post (skipWhitespace >>= f) (bs ++ r) e b Q := by
  intro a s' heq
  rw [bind_ok (skipWhitespace_eq hb hr)] at heq
  obtain ⟨u, r', h1, h2, h3⟩ := h a s' heq
  exact ⟨bs ++ u, r', by rw [h1, List.append_assoc], h2, h3⟩

theorem blanks_of_ws {ws : List PTok} (h : ∀ t ∈ ws, ∃ w, t.2 = Token.Whitespace w) :
    Blanks ws := by
  induction ws with
  | nil => exact .nil
  | cons x ws ih =>
    obtain ⟨p, t⟩ := x
    obtain ⟨w, hw⟩ := h (p, t) (by simp)
    simp only at hw
    subst hw
    exact .ws (ih fun t ht => h t (by simp [ht]))

/-- What `mpAssigOp` accepts. -/
def AssigCont (r : List PTok) : Prop :=
  ∃ ws p t r', r = ws ++ (p, t) :: r' ∧ (∀ x ∈ ws, ∃ w, x.2 = Token.Whitespace w) ∧
    ((t.isAssigOp = true ∧ r'.head?.map (·.2) = some .Equals) ∨
     (t = .Equals ∧ r'.head?.map (·.2) ≠ some .Equals))

theorem mpAssigOp_true {n : Nat} {it : AIter} {r : List PTok}
    (h : (mpAssigOp (I := AIter) n (AMultipeek.mk it (r.map (·.2)))).1 = true) : AssigCont r := by
  induction n generalizing r with
  | zero => cases h
  | succ n ih =>
    unfold mpAssigOp at h
    rcases r with _ | ⟨⟨p, t⟩, r⟩
    · cases h
    · simp only [TokStream.mpNext, List.map_cons, List.head?_cons, List.tail_cons] at h
      split at h
      · rename_i ht
        obtain ⟨ws, q, t', r', rfl, h1, h2⟩ := ih h
        refine ⟨(p, t) :: ws, q, t', r', rfl, ?_, h2⟩
        intro x hx
        rcases List.mem_cons.1 hx with rfl | hx
        · cases t <;> simp [Token.isWs] at ht ⊢
        · exact h1 x hx
      · split at h
        · rename_i h1
          refine ⟨[], p, t, r, rfl, by simp, .inl ⟨h1, ?_⟩⟩
          simpa using h
        · split at h
          · rename_i h1
            refine ⟨[], p, t, r, rfl, by simp, .inr ⟨h1, ?_⟩⟩
            simpa using h
          · cases h

theorem mpAssig_var {n : Nat} {it : AIter} {vs : List PTok} {x : Str} (hv : VarRef vs x)
    {r : List PTok} (h : (mpAssig (I := AIter) n (AMultipeek.mk it ((vs ++ r).map (·.2)))).1 = true) :
    AssigCont r := by
  cases hv with
  | name =>
    cases n with
    | zero => cases h
    | succ n => exact mpAssigOp_true h
  | dollar =>
    cases n with
    | zero => cases h
    | succ n =>
      cases n with
      | zero => cases h
      | succ n => exact mpAssigOp_true h

theorem post_lookaheadLen {α β : Type} {g : Nat → TokStream.MP AIter → α × TokStream.MP AIter}
    {f : α → P AIter B β} {l : List PTok} {Q : List PTok → β → List PTok → Prop}
    (hg : (g (l.length + 2) ⟨⟨l, e⟩, l.map (·.2)⟩).2.it = ⟨l, e⟩)
    (h : Post (f (g (l.length + 2) ⟨⟨l, e⟩, l.map (·.2)⟩).1) l e b Q) :
    Post ((fun s => lookahead (g (TokStream.len s.it + 2)) s : P AIter B α) >>= f) l e b Q := by
  have := post_lookahead (g := g (l.length + 2)) hg h
  exact this

theorem assigOp_mk {op : Token} (h : op.isAssigOp = true) : ∃ mk, (op, mk) ∈ compoundOps ∧
    ∀ x v, assigValue x v op = some (mk (.Var x) v) := by
  cases op <;> first
    | (simp [Token.isAssigOp] at h; done)
    | exact ⟨_, by simp [compoundOps], fun _ _ => rfl⟩

theorem post_bind_of {α β : Type} {m : P AIter B α} {f : α → P AIter B β} {l : List PTok}
    {Q1 : List PTok → α → List PTok → Prop} {Q : List PTok → β → List PTok → Prop} (h : Post m l e b Q1)
    (h' : ∀ u r x, l = u ++ r → Q1 u x r → Post (f x) r e b (fun v => Q (u ++ v))) :
    Post (m >>= f) l e b Q := post_bind h h'

theorem post_arithAssig (h : SoundRec R e b) (l : List PTok) :
    Post (arithAssig R) l e b (ExprB .assign) := by
  unfold arithAssig
  refine post_skip fun bs r _ hb hr => ?_
  refine post_lookaheadLen (g := mpAssig) (mpAssig_it_abs _ _) ?_
  split
  · rename_i hla
    refine post_bind (post_arithVar r) ?_
    rintro _ r1 x rfl ⟨bs1, vs, rfl, hb1, hv⟩
    have hnil : bs1 = [] := by
      cases hb1 with
      | nil => rfl
      | ws h => exact absurd rfl (hr.1 _ _ _)
      | escaped h => exact absurd rfl (hr.2 _ _ _)
    subst hnil
    obtain ⟨ws, p, t, r', rfl, hws, ht⟩ := mpAssig_var (r := r1) hv (by simpa using hla)
    have htb : t.isWs = false ∧ t ≠ .Backslash := by
      rcases ht with ⟨h1, _⟩ | ⟨rfl, _⟩
      · cases t <;> simp [Token.isAssigOp, Token.isWs] at h1 ⊢
      · simp [Token.isWs]
    refine post_skip_of (blanks_of_ws hws) (noBlank_cons htb.1 htb.2) ?_
    refine post_next ?_
    rcases ht with ⟨h1, h2⟩ | ⟨rfl, h2⟩
    · simp only [h1, if_true]
      refine post_eat ?_
      rintro q r2 rfl
      refine post_bind (h.assig _) ?_
      rintro _ r3 a rfl ⟨v, bs2, rfl, hb2, hv2, ht2⟩
      obtain ⟨mk, hmk, hval⟩ := assigOp_mk h1
      rw [hval]
      exact post_pure ⟨_, bs2, by simp, hb2, .compound (p := p) (q := q) hb hv hws hmk hv2,
        ht2.ev (endsVar_op2 (expr_ne hv2) (by rw [lastVar]; exact lastVar_compound hmk _ _)).1⟩
    · simp only [Token.isAssigOp, if_true]
      refine post_bind (h.assig _) ?_
      rintro _ r3 a rfl ⟨v, bs2, rfl, hb2, hv2, ht2⟩
      exact post_pure ⟨_, bs2, by simp, hb2, .assign (p := p) hb hv hws hv2,
        ht2.ev (endsVar_op (expr_ne hv2) (by simp [lastVar])).1⟩
  · refine post_mono (post_arithTernary h r) ?_
    rintro v a r1 ⟨v, bs', rfl, hb', hv, ht⟩
    refine exprB_anyBlanks hb ⟨v, bs', rfl, hb', .tighter (by simp) hv,
      ⟨?_, ht.1.2.1, fun _ => ht.1.2.2 (by decide)⟩, fun _ => ht.2 (.inl (by decide))⟩
    rintro ⟨p, t⟩ r' heq k hk
    have h1 := ht.1.1 _ _ heq k hk
    have : k ≠ 1 := by
      rintro rfl
      cases t <;> simp [orank] at hk
    simp [lrank] at h1 ⊢
    omega

/-- The items of a sequence, and what is left after them. -/
def ItemsB (u : List PTok) (es : List DefaultArithmetic) (r : List PTok) : Prop :=
  ∃ v bs, u = v ++ bs ∧ Blanks bs ∧ Items .munch v es ∧ NoBlank r ∧ ∀ ev, Follow .seq ev r

theorem follow_seq {u : List PTok} {a : DefaultArithmetic} {r : List PTok} (h : Tail .assign u a r)
    (hc : ∀ p r', r ≠ (p, .Comma) :: r') (ev : Prop) : Follow .seq ev r := by
  have hnone : ∀ x r', r = x :: r' → orank x.2 = none := by
    rintro ⟨p, t⟩ r' rfl
    cases hk : orank t with
    | none => rfl
    | some k =>
      have h1 := h.1.1 _ _ rfl k hk
      simp [lrank] at h1
      subst h1
      cases t <;> simp [orank] at hk
      exact absurd rfl (hc _ _)
  rcases r with _ | ⟨⟨p, t⟩, r⟩
  · exact follow_nil
  · exact follow_none (hnone _ _ rfl)

theorem post_arithSubst (h : SoundRec R e b) (l : List PTok) :
    Post (arithSubst R) l e b (ExprB .seq) := by
  unfold arithSubst
  refine post_bind (Q1 := ItemsB) ?_ ?_
  · refine post_loop
      (I := fun es u _ => ∀ v as, Items .munch v as → Items .munch (u ++ v) (es ++ as))
      (by intro v as h; exact h) ?_
    intro es u l hI
    unfold arithSubstBody
    refine post_skip fun bs r _ hb hr => ?_
    refine post_bind (post_arithAssig h r) ?_
    rintro _ r1 a rfl ⟨w, bs1, rfl, hb1, hw, ht⟩
    refine post_eatMaybe ?_ ?_
    · rintro p r2 rfl
      refine post_pure ?_
      intro v as hv
      have := hI _ _ (.cons (p := p) (expr_blanks hb hw) hb1 hv)
      simpa only [List.append_assoc, List.cons_append, List.nil_append] using this
    · intro hc
      refine post_pure ?_
      refine ⟨u ++ (bs ++ w), bs1, by simp, hb1, ?_, ht.2 (.inl (by decide)), follow_seq ht hc⟩
      exact hI _ _ (.one (expr_blanks hb hw))
  · rintro _ r es rfl ⟨v, bs, rfl, hb, hv, hn, hf⟩
    cases hv with
    | one h => exact post_pure ⟨v, bs, by simp, hb, .tighter (by simp) h, hf _, fun _ => hn⟩
    | @cons u a bs1 p v as h1 h2 h3 =>
      cases as with
      | nil => cases h3
      | cons c as =>
        refine post_pure ⟨_, bs, by simp, hb, .seq (.cons (p := p) h1 h2 h3) ?_, hf _, fun _ => hn⟩
        simp

theorem sound_fix (n : Nat) : SoundRec (ArithRec.fix n : ArithRec AIter B) e b := by
  induction n with
  | zero => constructor <;> exact fun l => post_fuel
  | succ n ih =>
    constructor
    · exact post_arithSubst ih
    · exact post_arithAssig ih
    · exact post_arithTernary ih
    · exact post_arithPow ih
    · exact post_arithUnary ih

theorem post_arithmeticSubstitution (l : List PTok) :
    Post (arithmeticSubstitution : P AIter B _) l e b (ExprB .seq) := by
  intro a s' heq
  exact post_arithSubst (sound_fix (l.length + 1)) l a s' heq

end

/-- What the parser leaves is neither a blank nor an operator. -/
theorem Tail.notOp {u : List PTok} {a : DefaultArithmetic} {r : List PTok} (h : Tail .seq u a r) :
    ∀ p t r', r = (p, t) :: r' → t ∉ operatorTokens := by
  rintro p t r' rfl ht
  have h1 := h.1.1 _ _ rfl
  simp only [lrank, Nat.not_lt_zero] at h1
  revert h1 ht
  cases t <;> simp [operatorTokens, orank]

end Conch
