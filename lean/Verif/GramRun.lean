import Verif.GramLex
import Verif.ExactLex
/-!
# Exact runs, without positions

`Run m l b a r b'`: whatever the positions are, `m` on the tokens `l` with builder state `b` returns
`a` and leaves `r` and `b'`.
-/
namespace Conch.Gram
open Conch

/-- The tokens without their positions. -/
abbrev toks (l : List Spec.PTok) : List Token := l.map (·.2)

theorem toks_append {L : List Spec.PTok} {x y : List Token} (h : toks L = x ++ y) :
    ∃ X Y, L = X ++ Y ∧ toks X = x ∧ toks Y = y := by
  obtain ⟨X, Y, h1, h2, h3⟩ := List.map_eq_append_iff.1 h
  exact ⟨X, Y, h1, h2, h3⟩

theorem toks_cons {L : List Spec.PTok} {t : Token} {y : List Token} (h : toks L = t :: y) :
    ∃ p Y, L = (p, t) :: Y ∧ toks Y = y := by
  obtain ⟨⟨p, t'⟩, Y, h1, h2, h3⟩ := List.map_eq_cons_iff.1 h
  cases h2
  exact ⟨p, Y, h1, h3⟩

theorem toks_nil {L : List Spec.PTok} (h : toks L = []) : L = [] := List.map_eq_nil_iff.1 h

theorem toks_length (L : List Spec.PTok) : (toks L).length = L.length := List.length_map ..

section
variable {B : Builder} {α β σ : Type}

/-- Exact runs up to positions. -/
def Run (m : P AIter B α) (l : List Token) (b : B.State) (a : α) (r : List Token) (b' : B.State) :
    Prop :=
  ∀ L e, toks L = l → ∃ R e', toks R = r ∧ m (st L e b) = (.ok a, st R e' b')

theorem Run.pure {l : List Token} {b : B.State} {a : α} : Run (pure a) l b a l b :=
  fun L e h => ⟨L, e, h, rfl⟩

theorem Run.bind {m : P AIter B α} {f : α → P AIter B β} {l b a r b' c r' b''}
    (h : Run m l b a r b') (h' : Run (f a) r b' c r' b'') : Run (m >>= f) l b c r' b'' := by
  intro L e hL
  obtain ⟨R, e', hR, h1⟩ := h L e hL
  obtain ⟨R', e'', hR', h2⟩ := h' R e' hR
  exact ⟨R', e'', hR', by rw [bind_ok h1, h2]⟩

theorem Run.peek {f : Option Token → P AIter B β} {l : List Token} {b c r b'}
    (h : Run (f l.head?) l b c r b') : Run (peek >>= f) l b c r b' := by
  intro L e hL
  obtain ⟨R, e', hR, h1⟩ := h L e hL
  refine ⟨R, e', hR, ?_⟩
  rw [peek_bind, ← h1, ← hL, List.head?_map]

theorem Run.peekCons {f : Option Token → P AIter B β} {t : Token} {l : List Token} {b c r b'}
    (h : Run (f (some t)) (t :: l) b c r b') : Run (Conch.peek >>= f) (t :: l) b c r b' := .peek h

theorem Run.peekNil {f : Option Token → P AIter B β} {b c r b'}
    (h : Run (f none) [] b c r b') : Run (Conch.peek >>= f) [] b c r b' := .peek h

theorem Run.getPos {f : SourcePos → P AIter B β} {l : List Token} {b c r b'}
    (h : ∀ p, Run (f p) l b c r b') : Run (getPos >>= f) l b c r b' := by
  intro L e hL
  obtain ⟨R, e', hR, h1⟩ := h _ L e hL
  exact ⟨R, e', hR, by rw [getPos_bind, h1]⟩

theorem Run.next {f : Option Token → P AIter B β} {t : Token} {l : List Token} {b c r b'}
    (h : Run (f (some t)) l b c r b') : Run (next >>= f) (t :: l) b c r b' := by
  intro L e hL
  replace hL := toks_cons hL; obtain ⟨p, L, rfl, hL⟩ := hL
  obtain ⟨R, e', hR, h1⟩ := h L e hL
  exact ⟨R, e', hR, by rw [next_bind_cons, h1]⟩

theorem Run.nextNil {f : Option Token → P AIter B β} {b c r b'}
    (h : Run (f none) [] b c r b') : Run (Conch.next >>= f) [] b c r b' := by
  intro L e hL
  obtain rfl := toks_nil hL
  obtain ⟨R, e', hR, h1⟩ := h [] e rfl
  exact ⟨R, e', hR, by rw [next_bind_nil, h1]⟩

theorem Run.eatYes {f : Bool → P AIter B β} {t : Token} {l : List Token} {b c r b'}
    (h : Run (f true) l b c r b') : Run (eatMaybe t >>= f) (t :: l) b c r b' := by
  intro L e hL
  replace hL := toks_cons hL; obtain ⟨p, L, rfl, hL⟩ := hL
  obtain ⟨R, e', hR, h1⟩ := h L e hL
  exact ⟨R, e', hR, by rw [eatMaybe_bind_yes, h1]⟩

theorem Run.eatNo {f : Bool → P AIter B β} {t : Token} {l : List Token} {b c r b'}
    (ht : ∀ l', l ≠ t :: l')
    (h : Run (f false) l b c r b') : Run (eatMaybe t >>= f) l b c r b' := by
  intro L e hL
  obtain ⟨R, e', hR, h1⟩ := h L e hL
  refine ⟨R, e', hR, ?_⟩
  rw [eatMaybe_bind_no, h1]
  subst hL
  intro h'
  cases L with
  | nil => cases h'
  | cons x L => obtain ⟨p, u⟩ := x; cases h'; exact ht _ rfl

theorem Run.eat {f : Unit → P AIter B β} {t : Token} {l : List Token} {b c r b'}
    (h : Run (f ()) l b c r b') : Run (eat t >>= f) (t :: l) b c r b' := by
  intro L e hL
  replace hL := toks_cons hL; obtain ⟨p, L, rfl, hL⟩ := hL
  obtain ⟨R, e', hR, h1⟩ := h L e hL
  exact ⟨R, e', hR, by rw [eat_bind, h1]⟩

theorem Run.eatLast {t : Token} {l : List Token} {b : B.State} :
    Run (Conch.eat t) (t :: l) b () l b := by
  unfold Conch.eat
  exact .eatYes .pure

theorem Run.call {c : Call B.toBTypes} {l : List Token} {b b' : B.State} {a : c.Ret}
    (h : B.call c b = (.ok a, b')) : Run (call c) l b a l b' := by
  intro L e hL
  refine ⟨L, e, hL, ?_⟩
  unfold Conch.call
  rw [h]

theorem Run.lookahead {g : TokStream.MP AIter → α × TokStream.MP AIter} {f : α → P AIter B β}
    {l : List Token} {b c r b'} (v : α) (hit : ∀ m : AMultipeek, (g m).2.it = m.it)
    (hv : ∀ it : AIter, (g (AMultipeek.mk it l)).1 = v) (h : Run (f v) l b c r b') :
    Run (lookahead g >>= f) l b c r b' := by
  intro L e hL
  obtain ⟨R, e', hR, h1⟩ := h L e hL
  refine ⟨R, e', hR, ?_⟩
  rw [lookahead_bind (hit _)]
  subst hL
  rw [show (g ⟨⟨L, e⟩, L.map (·.2)⟩).1 = v from hv _, h1]

/-- Exact runs of loops. -/
inductive LRun (body : σ → P AIter B (Step σ α)) :
    σ → List Token → B.State → α → List Token → B.State → Prop
  | done {x l b a r b'} : Run (body x) l b (.done a) r b' → LRun body x l b a r b'
  | cont {x l b y l1 b1 a r b'} : Run (body x) l b (.cont y) l1 b1 → l1.length < l.length →
      LRun body y l1 b1 a r b' → LRun body x l b a r b'

theorem LRun.run {body : σ → P AIter B (Step σ α)} {x l b a r b'} (h : LRun body x l b a r b') :
    Run (loop body x) l b a r b' := by
  suffices ∀ L e, toks L = l → ∃ R e', toks R = r ∧ LoopRun body x (st L e b) (.ok a, st R e' b') by
    intro L e hL
    obtain ⟨R, e', hR, h⟩ := this L e hL
    exact ⟨R, e', hR, h.loop⟩
  induction h with
  | done h =>
    intro L e hL
    obtain ⟨R, e', hR, h⟩ := h L e hL
    exact ⟨R, e', hR, .done h⟩
  | cont h hlt _ ih =>
    intro L e hL
    obtain ⟨R, e', hR, h⟩ := h L e hL
    obtain ⟨R', e'', hR', h'⟩ := ih R e' hR
    refine ⟨R', e'', hR', .cont h ?_ h'⟩
    subst hL hR
    simpa using hlt

/-! ## Blanks and lines -/

theorem lift_blanks {L : List Spec.PTok} (h : Blanks (toks L)) : Spec.Blanks L := by
  generalize hl : toks L = l at h
  induction h generalizing L with
  | nil => rw [toks_nil hl]; exact .nil
  | ws _ ih => replace hl := toks_cons hl; obtain ⟨p, L, rfl, hl⟩ := hl; exact .ws (ih hl)
  | escaped _ ih =>
    replace hl := toks_cons hl; obtain ⟨p, L, rfl, hl⟩ := hl
    replace hl := toks_cons hl; obtain ⟨q, L, rfl, hl⟩ := hl
    exact .escaped (ih hl)

theorem lift_noBlank {L : List Spec.PTok} (h : NoBlank (toks L)) : Spec.NoBlank L := by
  constructor
  · rintro p w r rfl; exact h.1 _ _ rfl
  · rintro p q r rfl; exact h.2 _ rfl

theorem lift_noLineStart {L : List Spec.PTok} (h : NoLineStart (toks L)) : Conch.NoLineStart L := by
  intro p r
  constructor
  · rintro rfl; exact (h _).1 rfl
  · rintro rfl; exact (h _).2 rfl

theorem lift_skip {L : List Spec.PTok} {r : List Token} (h : Skip (toks L) r) :
    ∃ X R, L = X ++ R ∧ toks R = r ∧ Spec.Blanks X ∧ Spec.NoBlank R := by
  obtain ⟨bs, h1, h2, h3⟩ := h
  obtain ⟨X, R, rfl, rfl, rfl⟩ := toks_append h1
  exact ⟨X, R, rfl, rfl, lift_blanks h2, lift_noBlank h3⟩

theorem Run.skip {l r : List Token} {b : B.State} (h : Skip l r) : Run skipWhitespace l b () r b := by
  rintro L e rfl
  obtain ⟨X, R, rfl, rfl, h1, h2⟩ := lift_skip h
  exact ⟨R, e, rfl, skipWhitespace_eq h1 h2⟩

theorem lift_mem {L : List Spec.PTok} {p : Token → Prop} (h : ∀ t ∈ toks L, p t) : ∀ t ∈ L, p t.2 :=
  fun t ht => h _ (List.mem_map_of_mem ht)

theorem lift_line {L : List Spec.PTok} {n : Nl} {r : List Token} (h : Line (toks L) n r) :
    ∃ R, toks R = r ∧ Spec.Line L n R := by
  generalize hl : toks L = l at h
  cases h with
  | newline hb =>
    replace hl := toks_append hl; obtain ⟨X, L, rfl, rfl, hl⟩ := hl
    replace hl := toks_cons hl; obtain ⟨p, L, rfl, hl⟩ := hl
    exact ⟨L, hl, .newline (lift_blanks hb)⟩
  | comment hb hc =>
    replace hl := toks_append hl; obtain ⟨X, L, rfl, hx, hl⟩ := hl
    replace hl := toks_cons hl; obtain ⟨p, L, rfl, hl⟩ := hl
    obtain ⟨X, C, rfl, rfl, hC⟩ := toks_append hx
    obtain ⟨q, C, rfl, rfl⟩ := toks_cons hC
    exact ⟨L, hl, .comment (lift_blanks hb) (lift_mem hc)⟩
  | lastComment hb hc =>
    obtain ⟨X, C, rfl, rfl, hC⟩ := toks_append hl
    obtain ⟨q, C, rfl, rfl⟩ := toks_cons hC
    exact ⟨[], rfl, .lastComment (lift_blanks hb) (lift_mem hc)⟩

theorem Run.newline {l : List Token} {n : Option Nl} {r : List Token} {b : B.State}
    (h : OptLine l n r) : Run newline l b n r b := by
  rintro L e rfl
  cases h with
  | some h =>
    obtain ⟨R, hR, h⟩ := lift_line h
    exact ⟨R, e, hR, newline_eq_line h⟩
  | none h hn =>
    obtain ⟨X, R, rfl, rfl, h1, h2⟩ := lift_skip h
    exact ⟨R, e, rfl, newline_eq_none h1 h2 (lift_noLineStart hn)⟩

theorem Line.lt {l r : List Token} {n : Nl} (h : Line l n r) : r.length < l.length := by
  cases h <;> simp <;> omega

theorem lrun_linebreak {l : List Token} {ns : List Nl} {r : List Token} {b : B.State}
    (h : Lines l ns r) (acc : List Nl) : LRun linebreakBody acc l b (acc ++ ns) r b := by
  induction h generalizing acc with
  | nil h hn =>
    refine .done ?_
    unfold linebreakBody
    refine .bind (Run.newline (.none h hn)) ?_
    rw [List.append_nil]
    exact .pure
  | @cons l n l' ns r h _ ih =>
    refine .cont (y := acc ++ [n]) (l1 := l') (b1 := b) ?_ h.lt ?_
    · unfold linebreakBody
      exact .bind (Run.newline (.some h)) .pure
    · have := ih (acc ++ [n])
      rwa [List.append_assoc] at this

theorem Run.linebreak {l : List Token} {ns : List Nl} {r : List Token} {b : B.State}
    (h : Lines l ns r) : Run linebreak l b ns r b := (lrun_linebreak h []).run

/-! ## Reserved words and tokens -/

theorem lift_endsWord {L : List Spec.PTok} (h : EndsWord (toks L)) : Conch.EndsWord L := by
  rintro x r rfl; exact h _ _ rfl

theorem unlift_endsWord {L : List Spec.PTok} (h : Conch.EndsWord L) : EndsWord (toks L) := by
  intro t r ht
  obtain ⟨p, L, rfl, rfl⟩ := toks_cons ht
  exact h _ _ rfl

theorem lift_keyword {L : List Spec.PTok} {w : Str} {r : List Token} (h : Keyword w (toks L) r) :
    WordAt L w := by
  obtain ⟨h | h, he⟩ := h
  · obtain ⟨p, L, rfl, rfl⟩ := toks_cons h; exact ⟨p, L, .inl rfl, lift_endsWord he⟩
  · obtain ⟨p, L, rfl, rfl⟩ := toks_cons h; exact ⟨p, L, .inr rfl, lift_endsWord he⟩

theorem unlift_keyword {L : List Spec.PTok} {w : Str} (h : WordAt L w) :
    ∃ r, Keyword w (toks L) r := by
  obtain ⟨p, R, h | h, he⟩ := h
  · subst h; exact ⟨toks R, .inl rfl, unlift_endsWord he⟩
  · subst h; exact ⟨toks R, .inr rfl, unlift_endsWord he⟩

theorem Run.peekWord {ws : List Str} {w : Str} {l l' r : List Token} {b : B.State} (hw : w ∈ ws)
    (h : Skip l l') (hk : Keyword w l' r) : Run (peekReservedWord ws) l b (some w) l' b := by
  rintro L e rfl
  obtain ⟨X, R, rfl, rfl, h1, h2⟩ := lift_skip h
  exact ⟨R, e, rfl, peekReservedWord_some h1 h2 hw (lift_keyword hk)⟩

theorem Run.peekNoWord {ws : List Str} {l l' : List Token} {b : B.State} (hne : ws ≠ [])
    (h : Skip l l') (hk : ∀ w ∈ ws, ∀ r, ¬ Keyword w l' r) :
    Run (peekReservedWord ws) l b none l' b := by
  rintro L e rfl
  obtain ⟨X, R, rfl, rfl, h1, h2⟩ := lift_skip h
  refine ⟨R, e, rfl, peekReservedWord_none hne h1 h2 ?_⟩
  intro w hw hW
  obtain ⟨r, hr⟩ := unlift_keyword hW
  exact hk w hw r hr

theorem Keyword.cons {w : Str} {l r : List Token} (h : Keyword w l r) : ∃ t, l = t :: r := by
  obtain ⟨h | h, -⟩ := h <;> exact ⟨_, h⟩

theorem Run.word {ws : List Str} {w : Str} {l r : List Token} {b : B.State} (hw : w ∈ ws)
    (h : Kw w l r) : Run (reservedWord ws) l b (some w) r b := by
  obtain ⟨l', h, hk⟩ := h
  unfold reservedWord
  refine .bind (Run.peekWord hw h hk) ?_
  obtain ⟨t, rfl⟩ := hk.cons
  exact .next .pure

theorem lift_tokenAt {L : List Spec.PTok} {t : Token} {r : List Token} (h : toks L = t :: r)
    (he : EndsWord r) : TokenAt L t := by
  obtain ⟨p, L, rfl, rfl⟩ := toks_cons h; exact ⟨p, L, rfl, lift_endsWord he⟩

theorem Run.peekToken {ts : List Token} {t : Token} {l r : List Token} {b : B.State}
    (hws : ∀ u ∈ ts, u.isWs = false) (ht : t ∈ ts) (h : Skip l (t :: r)) (he : EndsWord r) :
    Run (peekReservedToken ts) l b (some t) (t :: r) b := by
  rintro L e rfl
  obtain ⟨X, R, rfl, hR, h1, h2⟩ := lift_skip h
  exact ⟨R, e, hR, peekReservedToken_some hws h1 h2 ht (lift_tokenAt hR he)⟩

theorem Run.peekNoToken {ts : List Token} {l l' : List Token} {b : B.State} (hne : ts ≠ [])
    (hws : ∀ u ∈ ts, u.isWs = false)
    (h : Skip l l') (hk : ∀ t ∈ ts, ∀ r, l' = t :: r → ¬ EndsWord r) :
    Run (peekReservedToken ts) l b none l' b := by
  rintro L e rfl
  obtain ⟨X, R, rfl, rfl, h1, h2⟩ := lift_skip h
  refine ⟨R, e, rfl, peekReservedToken_none hne hws h1 h2 ?_⟩
  rintro t ht ⟨p, R, rfl, he⟩
  exact hk t ht _ rfl (unlift_endsWord he)

theorem Skip.noBlank {l r : List Token} (h : Skip l r) : NoBlank r := h.choose_spec.2.2

theorem Skip.refl {r : List Token} (h : NoBlank r) : Skip r r := ⟨[], rfl, .nil, h⟩

theorem Run.token {ts : List Token} {t : Token} {l r : List Token} {b : B.State}
    (hws : ∀ u ∈ ts, u.isWs = false) (ht : t ∈ ts) (h : Skip l (t :: r)) (he : EndsWord r) :
    Run (reservedToken' ts) l b (some t) r b := by
  unfold reservedToken'
  exact .bind (Run.peekToken hws ht h he) (.next .pure)

theorem Run.token' {ts : List Token} {t : Token} {l r : List Token} {b : B.State}
    (hws : ∀ u ∈ ts, u.isWs = false) (ht : t ∈ ts) (h : Skip l (t :: r)) (he : EndsWord r) :
    Run (reservedToken ts) l b t r b := by
  unfold reservedToken
  exact .bind (Run.token hws ht h he) .pure

end
end Conch.Gram
