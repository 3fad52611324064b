import Verif.GramScan
import Verif.ArithSound
/-!
# What successful runs satisfy, without positions

`Snd m l b Q`: whatever the positions are, if `m` succeeds on the tokens `l` with builder state `b`,
then `Q` holds of the result, the tokens left and the builder state.
-/
namespace Conch.Gram
open Conch

section
variable {B : Builder} {α β σ : Type}

/-- Partial correctness up to positions. -/
def Snd (m : P AIter B α) (l : List Token) (b : B.State) (Q : α → List Token → B.State → Prop) :
    Prop :=
  ∀ L e, toks L = l → ∀ a s', m (st L e b) = (.ok a, s') → Q a (toks s'.it.rest) s'.b

variable {l : List Token} {b : B.State} {Q : α → List Token → B.State → Prop}
  {Q2 : β → List Token → B.State → Prop}

theorem Snd.pure {a : α} (h : Q a l b) : Snd (pure a) l b Q := by
  intro L e hL a' s' heq
  cases heq
  exact hL ▸ h

theorem Snd.mono {m : P AIter B α} {Q' : α → List Token → B.State → Prop} (h : Snd m l b Q)
    (h' : ∀ a r b', Q a r b' → Q' a r b') : Snd m l b Q' :=
  fun L e hL a s' heq => h' _ _ _ (h L e hL a s' heq)

theorem Snd.bind {m : P AIter B α} {f : α → P AIter B β}
    (h : Snd m l b fun a r b' => Snd (f a) r b' Q2) : Snd (m >>= f) l b Q2 := by
  intro L e hL c s' heq
  change P.bind m f _ = _ at heq
  unfold P.bind at heq
  cases hm : m (st L e b) with
  | mk z s1 =>
    rw [hm] at heq
    cases z with
    | ok x => exact h L e hL x s1 hm s1.it.rest s1.it.endPos rfl c s' heq
    | err => cases heq
    | panic => cases heq
    | fuel => cases heq

theorem Snd.ofRun {m : P AIter B α} {a r b'} (h : Run m l b a r b') (hq : Q a r b') :
    Snd m l b Q := by
  intro L e hL a' s' heq
  obtain ⟨R, e', hR, h1⟩ := h L e hL
  rw [h1] at heq
  cases heq
  exact hR ▸ hq

/-- An exact run, then the rest. -/
theorem Snd.after {m : P AIter B α} {f : α → P AIter B β} {a r b'} (h : Run m l b a r b')
    (hq : Snd (f a) r b' Q2) : Snd (m >>= f) l b Q2 := .bind (.ofRun h hq)

theorem Snd.ite {c : Prop} [Decidable c] {m1 m2 : P AIter B α} (h1 : c → Snd m1 l b Q)
    (h2 : ¬ c → Snd m2 l b Q) : Snd (if c then m1 else m2) l b Q := by
  split
  · next h => exact h1 h
  · next h => exact h2 h

theorem Snd.fail {e} : Snd (fail e) l b Q := by
  intro L e hL a' s' heq; cases heq

theorem Snd.panicAt {n} : Snd (panicAt n) l b Q := by
  intro L e hL a' s' heq; cases heq

theorem Snd.outOfFuel : Snd outOfFuel l b Q := by
  intro L e hL a' s' heq; cases heq

theorem Snd.unexpected : Snd unexpected l b Q := by
  intro L e hL a' s' heq
  cases L <;> cases heq

theorem Snd.peek {f : Option Token → P AIter B β} (h : Snd (f l.head?) l b Q2) :
    Snd (peek >>= f) l b Q2 := by
  intro L e hL a s' heq
  rw [peek_bind] at heq
  refine h L e hL a s' ?_
  rwa [← hL, List.head?_map]

theorem Snd.peekCons {f : Option Token → P AIter B β} {t : Token} (h : Snd (f (some t)) (t :: l) b Q2) :
    Snd (Conch.peek >>= f) (t :: l) b Q2 := .peek h

theorem Snd.peekNil {f : Option Token → P AIter B β} (h : Snd (f none) [] b Q2) :
    Snd (Conch.peek >>= f) [] b Q2 := .peek h

theorem Snd.next {f : Option Token → P AIter B β} {t : Token} (h : Snd (f (some t)) l b Q2) :
    Snd (next >>= f) (t :: l) b Q2 := by
  intro L e hL a s' heq
  replace hL := toks_cons hL; obtain ⟨p, L, rfl, hL⟩ := hL
  exact h L e hL a s' heq

theorem Snd.nextNil {f : Option Token → P AIter B β} (h : Snd (f none) [] b Q2) :
    Snd (Conch.next >>= f) [] b Q2 := by
  intro L e hL a s' heq
  obtain rfl := toks_nil hL
  exact h [] e rfl a s' heq

theorem Snd.getPos {f : SourcePos → P AIter B β} (h : ∀ p, Snd (f p) l b Q2) :
    Snd (getPos >>= f) l b Q2 := by
  intro L e hL a s' heq
  exact h _ L e hL a s' heq

theorem Snd.eatMaybe {f : Bool → P AIter B β} {t : Token}
    (h1 : ∀ r, l = t :: r → Snd (f true) r b Q2) (h2 : (∀ r, l ≠ t :: r) → Snd (f false) l b Q2) :
    Snd (eatMaybe t >>= f) l b Q2 := by
  by_cases h : ∃ r, l = t :: r
  · obtain ⟨r, rfl⟩ := h
    intro L e hL a s' heq
    replace hL := toks_cons hL; obtain ⟨p, L, rfl, hL⟩ := hL
    rw [eatMaybe_bind_yes] at heq
    exact h1 r rfl L e hL a s' heq
  · have h' : ∀ r, l ≠ t :: r := fun r hr => h ⟨r, hr⟩
    intro L e hL a s' heq
    rw [eatMaybe_bind_no] at heq
    · exact h2 h' L e hL a s' heq
    · subst hL
      intro hh
      rcases L with _ | ⟨⟨p, u⟩, L⟩
      · cases hh
      · cases hh; exact h' _ rfl

theorem Snd.eat {f : Unit → P AIter B β} {t : Token} (h : ∀ r, l = t :: r → Snd (f ()) r b Q2) :
    Snd (eat t >>= f) l b Q2 := by
  refine .bind ?_
  unfold Conch.eat
  exact .eatMaybe (fun r hr => .pure (h r hr)) fun _ => .unexpected

theorem Snd.call {c : Call B.toBTypes} {Q : c.Ret → List Token → B.State → Prop}
    (h : ∀ a b', B.call c b = (.ok a, b') → Q a l b') : Snd (call c) l b Q := by
  intro L e hL a s' heq
  unfold Conch.call at heq
  dsimp only at heq
  split at heq
  · next hc => cases heq; exact hL ▸ h _ _ hc
  · cases heq
  · cases heq

theorem Snd.lookahead {g : TokStream.MP AIter → α × TokStream.MP AIter} {f : α → P AIter B β}
    (hit : ∀ m : AMultipeek, (g m).2.it = m.it)
    (h : ∀ it : AIter, Snd (f (g (AMultipeek.mk it l)).1) l b Q2) :
    Snd (lookahead g >>= f) l b Q2 := by
  intro L e hL a s' heq
  rw [lookahead_bind (hit _)] at heq
  refine h ⟨L, e⟩ L e hL a s' ?_
  subst hL
  exact heq

/-- What an iteration ensures. -/
def LStep (Inv : σ → List Token → B.State → Prop) (Q : α → List Token → B.State → Prop) :
    Step σ α → List Token → B.State → Prop
  | .cont y => Inv y
  | .done a => Q a

theorem Snd.loop {body : σ → P AIter B (Step σ α)} {x : σ} (Inv : σ → List Token → B.State → Prop)
    (h : Inv x l b) (hb : ∀ x l b, Inv x l b → Snd (body x) l b (LStep Inv Q)) :
    Snd (loop body x) l b Q := by
  suffices ∀ n x l b, Inv x l b → Snd (loopN body n x) l b Q by
    intro L e hL a s' heq
    exact this _ _ _ _ h L e hL a s' heq
  intro n
  induction n with
  | zero => intro x l b _; exact .outOfFuel
  | succ n ih =>
    intro x l b h
    rw [loopN]
    refine .bind ((hb x l b h).mono ?_)
    rintro (y | a) r b' hs
    · exact ih _ _ _ hs
    · exact .pure hs

/-- What an iteration of a loop that collects things in a list ensures: it reads a part of the
list. -/
def CStep {τ : Type} (Rd : B.State → List Token → List τ → List Token → B.State → Prop)
    (x : List τ) (l : List Token) (b : B.State) :
    Step (List τ) (List τ) → List Token → B.State → Prop
  | .done a, r, b' => ∃ y, a = x ++ y ∧ Rd b l y r b'
  | .cont a, r, b' => ∃ y, a = x ++ y ∧ ∀ z r' b'', Rd b' r z r' b'' → Rd b l (y ++ z) r' b''

/-- Loops that collect things in a list. -/
theorem Snd.collect {τ : Type} {body : List τ → P AIter B (Step (List τ) (List τ))} {x : List τ}
    (Rd : B.State → List Token → List τ → List Token → B.State → Prop)
    (hb : ∀ x l b, Snd (body x) l b (CStep Rd x l b)) :
    Snd (Conch.loop body x) l b fun a r b' => ∃ y, a = x ++ y ∧ Rd b l y r b' := by
  refine .loop (fun a l' b' => ∃ y, a = x ++ y ∧
    ∀ z r' b'', Rd b' l' z r' b'' → Rd b l (y ++ z) r' b'') ⟨[], by simp, by simp⟩ ?_
  rintro _ l' b' ⟨y, rfl, h⟩
  refine (hb _ _ _).mono ?_
  rintro (a | a) r b'' hs
  · obtain ⟨y', rfl, h'⟩ := hs
    exact ⟨y ++ y', by simp, fun z r' b3 hz => by rw [List.append_assoc]; exact h _ _ _ (h' _ _ _ hz)⟩
  · obtain ⟨y', rfl, h'⟩ := hs
    exact ⟨y ++ y', by simp, h _ _ _ h'⟩

theorem Snd.withIter {m : P AIter B α} {l' : List Token} {sub : AIter} (hs : sub.toks = l')
    (h : Snd m l' b fun a _ b' => Q a l b') : Snd (withIter sub m) l b Q := by
  intro L e hL a s' heq
  unfold Conch.withIter at heq
  dsimp only at heq
  cases hm : m ⟨sub, b⟩ with
  | mk z s1 =>
    rw [hm] at heq
    cases z with
    | ok x =>
      have := h sub.rest sub.endPos hs x s1 hm
      cases heq
      exact hL ▸ this
    | err => cases heq
    | panic => cases heq
    | fuel => cases heq

theorem Snd.withIterRestore {m : P AIter B α} {l' : List Token} {sub : AIter} (hs : sub.toks = l')
    (h : Snd m l' b fun a _ b' => Q a l b') : Snd (withIterRestore sub m) l b Q := by
  intro L e hL a s' heq
  unfold Conch.withIterRestore at heq
  dsimp only at heq
  cases hm : m ⟨sub, b⟩ with
  | mk z s1 =>
    rw [hm] at heq
    cases z with
    | ok x =>
      have := h sub.rest sub.endPos hs x s1 hm
      cases heq
      exact hL ▸ this
    | err => cases heq
    | panic => cases heq
    | fuel => cases heq

/-! ## Blanks, lines, keywords -/

/-- Any list of tokens has positions. -/
theorem toks_surj (l : List Token) : ∃ L, toks L = l :=
  ⟨anywhere l, by simp [anywhere, toks, Function.comp_def]⟩

theorem unlift_blanks {L : List Spec.PTok} (h : Spec.Blanks L) : Blanks (toks L) := by
  induction h with
  | nil => exact .nil
  | ws _ ih => exact .ws ih
  | escaped _ ih => exact .escaped ih

theorem unlift_noBlank {L : List Spec.PTok} (h : Spec.NoBlank L) : NoBlank (toks L) := by
  constructor
  · intro w r hL
    obtain ⟨p, L, rfl, -⟩ := toks_cons hL
    exact h.1 _ _ _ rfl
  · intro r hL
    replace hL := toks_cons hL; obtain ⟨p, L, rfl, hL⟩ := hL
    obtain ⟨q, L, rfl, hL⟩ := toks_cons hL
    exact h.2 _ _ _ rfl

theorem skip_total (l : List Token) : ∃ r, Skip l r := by
  obtain ⟨L, rfl⟩ := toks_surj l
  obtain ⟨bs, r, rfl, hb, hr⟩ := blank_split L
  exact ⟨toks r, toks bs, by simp, unlift_blanks hb, unlift_noBlank hr⟩

theorem unlift_line {L : List Spec.PTok} {n : Nl} {R} (h : Spec.Line L n R) :
    Line (toks L) n (toks R) := by
  cases h with
  | newline hb => simpa using Line.newline (unlift_blanks hb)
  | comment hb hc =>
    have := Line.comment (r := toks R) (unlift_blanks hb) (cs := toks _) (by
      intro t ht; obtain ⟨x, hx, rfl⟩ := List.mem_map.1 ht; exact hc x hx)
    simpa using this
  | lastComment hb hc =>
    have := Line.lastComment (unlift_blanks hb) (cs := toks _) (by
      intro t ht; obtain ⟨x, hx, rfl⟩ := List.mem_map.1 ht; exact hc x hx)
    simpa using this

theorem unlift_noLineStart {L : List Spec.PTok} (h : Conch.NoLineStart L) : NoLineStart (toks L) := by
  intro r
  constructor
  · intro hL; obtain ⟨p, L, rfl, -⟩ := toks_cons hL; exact (h _ _).1 rfl
  · intro hL; obtain ⟨p, L, rfl, -⟩ := toks_cons hL; exact (h _ _).2 rfl

theorem line_cases (l : List Token) :
    (∃ n r, Line l n r) ∨ ∃ r, Skip l r ∧ NoLineStart r := by
  obtain ⟨L, rfl⟩ := toks_surj l
  rcases line_or_not L with ⟨n, r, h⟩ | ⟨bs, r, rfl, hb, hr, hn⟩
  · exact .inl ⟨n, _, unlift_line h⟩
  · exact .inr ⟨toks r, ⟨toks bs, by simp, unlift_blanks hb, unlift_noBlank hr⟩, unlift_noLineStart hn⟩

theorem optLine_total (l : List Token) : ∃ n r, OptLine l n r := by
  rcases line_cases l with ⟨n, r, h⟩ | ⟨r, h, hn⟩
  · exact ⟨_, _, .some h⟩
  · exact ⟨_, _, .none h hn⟩

theorem lines_total (l : List Token) : ∃ ns r, Lines l ns r := by
  obtain ⟨n, hn⟩ : ∃ n, l.length = n := ⟨_, rfl⟩
  induction n using Nat.strongRecOn generalizing l with | _ n ih =>
  rcases line_cases l with ⟨m, r, h⟩ | ⟨r, h, hn⟩
  · obtain ⟨ns, r', h'⟩ := ih _ (hn ▸ h.lt) r rfl
    exact ⟨_, _, .cons h h'⟩
  · exact ⟨_, _, .nil h hn⟩

theorem Snd.skip {f : Unit → P AIter B β} (h : ∀ r, Skip l r → Snd (f ()) r b Q2) :
    Snd (skipWhitespace >>= f) l b Q2 := by
  obtain ⟨r, hr⟩ := skip_total l
  exact .after (Run.skip hr) (h r hr)

theorem Snd.newline {f : Option Nl → P AIter B β}
    (h : ∀ n r, OptLine l n r → Snd (f n) r b Q2) : Snd (newline >>= f) l b Q2 := by
  obtain ⟨n, r, hr⟩ := optLine_total l
  exact .after (Run.newline hr) (h n r hr)

theorem Snd.linebreak {f : List Nl → P AIter B β}
    (h : ∀ ns r, Lines l ns r → Snd (f ns) r b Q2) : Snd (linebreak >>= f) l b Q2 := by
  obtain ⟨n, r, hr⟩ := lines_total l
  exact .after (Run.linebreak hr) (h n r hr)

theorem Snd.peekWord {ws : List Str} {f : Option Str → P AIter B β} (hne : ws ≠ [])
    (h1 : ∀ l' w r, Skip l l' → w ∈ ws → Keyword w l' r → Snd (f (some w)) l' b Q2)
    (h2 : ∀ l', Skip l l' → (∀ w ∈ ws, ∀ r, ¬ Keyword w l' r) → Snd (f none) l' b Q2) :
    Snd (peekReservedWord ws >>= f) l b Q2 := by
  obtain ⟨l', hl⟩ := skip_total l
  by_cases h : ∃ w ∈ ws, ∃ r, Keyword w l' r
  · obtain ⟨w, hw, r, hk⟩ := h
    exact .after (Run.peekWord hw hl hk) (h1 l' w r hl hw hk)
  · have h' : ∀ w ∈ ws, ∀ r, ¬ Keyword w l' r := fun w hw r hk => h ⟨w, hw, r, hk⟩
    exact .after (Run.peekNoWord hne hl h') (h2 l' hl h')

theorem Snd.word {ws : List Str} {f : Option Str → P AIter B β} (hne : ws ≠ [])
    (h1 : ∀ w r, w ∈ ws → Kw w l r → Snd (f (some w)) r b Q2)
    (h2 : ∀ l', Skip l l' → (∀ w ∈ ws, ∀ r, ¬ Keyword w l' r) → Snd (f none) l' b Q2) :
    Snd (reservedWord ws >>= f) l b Q2 := by
  refine .bind ?_
  unfold reservedWord
  refine .peekWord hne ?_ ?_
  · intro l' w r hl hw hk
    obtain ⟨t, rfl⟩ := hk.cons
    exact Snd.next (.pure (h1 w r hw ⟨_, hl, hk⟩))
  · intro l' hl hk
    exact Snd.pure (h2 l' hl hk)

theorem Snd.peekToken {ts : List Token} {f : Option Token → P AIter B β} (hne : ts ≠ [])
    (hws : ∀ u ∈ ts, u.isWs = false)
    (h1 : ∀ t r, Skip l (t :: r) → t ∈ ts → EndsWord r → Snd (f (some t)) (t :: r) b Q2)
    (h2 : ∀ l', Skip l l' → (∀ t ∈ ts, ∀ r, l' = t :: r → ¬ EndsWord r) → Snd (f none) l' b Q2) :
    Snd (peekReservedToken ts >>= f) l b Q2 := by
  obtain ⟨l', hl⟩ := skip_total l
  by_cases h : ∃ t ∈ ts, ∃ r, l' = t :: r ∧ EndsWord r
  · obtain ⟨t, ht, r, rfl, he⟩ := h
    exact .after (Run.peekToken hws ht hl he) (h1 t r hl ht he)
  · have h' : ∀ t ∈ ts, ∀ r, l' = t :: r → ¬ EndsWord r := fun t ht r hr he => h ⟨t, ht, r, hr, he⟩
    exact .after (Run.peekNoToken hne hws hl h') (h2 l' hl h')

theorem Snd.token' {ts : List Token} {f : Option Token → P AIter B β} (hne : ts ≠ [])
    (hws : ∀ u ∈ ts, u.isWs = false)
    (h1 : ∀ t r, Skip l (t :: r) → t ∈ ts → EndsWord r → Snd (f (some t)) r b Q2)
    (h2 : ∀ l', Snd (f none) l' b Q2) :
    Snd (reservedToken' ts >>= f) l b Q2 := by
  refine .bind ?_
  unfold reservedToken'
  refine .peekToken hne hws ?_ ?_
  · intro t r hl hw hk
    exact Snd.next (.pure (h1 t r hl hw hk))
  · intro l' hl hk
    dsimp only
    cases l' with
    | nil => exact .peekNil (Snd.pure (h2 _))
    | cons t l' =>
      refine .peekCons ?_
      dsimp only
      split
      · exact Snd.next (.pure (h2 _))
      · exact .pure (h2 _)

theorem Snd.token {ts : List Token} {f : Token → P AIter B β} (hne : ts ≠ [])
    (hws : ∀ u ∈ ts, u.isWs = false)
    (h1 : ∀ t r, Skip l (t :: r) → t ∈ ts → EndsWord r → Snd (f t) r b Q2) :
    Snd (reservedToken ts >>= f) l b Q2 := by
  refine .bind ?_
  unfold reservedToken
  exact .token' hne hws (fun t r h h' h2 => .pure (h1 t r h h' h2)) fun _ => .unexpected

theorem Snd.wordOrUnexpected {ws : List Str} {f : Str → P AIter B β} (hne : ws ≠ [])
    (h1 : ∀ w r, w ∈ ws → Kw w l r → Snd (f w) r b Q2) :
    Snd (reservedWordOrUnexpected ws >>= f) l b Q2 := by
  refine .bind ?_
  unfold reservedWordOrUnexpected
  exact .word hne (fun w r hw hk => .pure (h1 w r hw hk)) fun _ _ _ => .unexpected

theorem Snd.wordOrIncomplete {ws : List Str} {c p k} {f : Str → P AIter B β} (hne : ws ≠ [])
    (h1 : ∀ w r, w ∈ ws → Kw w l r → Snd (f w) r b Q2) :
    Snd (reservedWordOrIncomplete ws c p k >>= f) l b Q2 := by
  refine .bind ?_
  unfold reservedWordOrIncomplete
  exact .word hne (fun w r hw hk => .pure (h1 w r hw hk)) fun _ _ _ => .getPos fun _ => .fail

/-! ## Scans -/

theorem anywhere_toks (L : List Spec.PTok) : Same (anywhere (toks L)) L := Eq.symm (same_anywhere L)

theorem Snd.scan {f : AIter → Collected × AIter} {k : List Token → P AIter B β}
    (h : ∀ L e, toks L = l → (∃ u r e', f ⟨L, e⟩ = (.ok u, ⟨r, e'⟩) ∧ Snd (k u) (toks r) b Q2) ∨
      ∃ err, (f ⟨L, e⟩).1 = .unmatched err) :
    Snd (scan f >>= k) l b Q2 := by
  refine .bind ?_
  intro L e hL a s' heq
  unfold Conch.scan at heq
  dsimp only at heq
  rcases h L e hL with ⟨u, r, e', h1, h2⟩ | ⟨err, h1⟩
  · rw [h1] at heq
    cases heq
    exact h2
  · rw [h1] at heq
    cases heq

theorem Snd.region {c : Token} {p : SourcePos} {k : List Token → P AIter B β} (hc : Spec.Closer c)
    (h : ∀ u r, l = u ++ c :: r → Spec.Body c (anywhere u) → Snd (k u) r b Q2) :
    Snd (Conch.scan (fun it => Spec.takeRegion it c p) >>= k) l b Q2 := by
  refine .scan ?_
  intro L e hL
  rcases closed_or_unclosed L c p hc with ⟨xs, q, ys, rfl, hb⟩ | ⟨er, hu⟩
  · exact .inl ⟨toks xs, ys, e, takeRegion_closed hb hc p q ys e,
      h (toks xs) (toks ys) (by rw [← hL]; simp) (same_body (anywhere_toks xs) hb)⟩
  · exact .inr ⟨er, by rw [takeRegion_unclosed hu hc e]⟩

theorem body_squote {u : List Spec.PTok} (h : Spec.Body .SingleQuote u) : ∀ t ∈ u, t.2 ≠ .SingleQuote := by
  generalize hc : Token.SingleQuote = c at h
  induction h with
  | nil => simp
  | quoted h1 _ ih => 
    intro t ht
    rcases List.mem_cons.1 ht with rfl | ht
    · exact h1
    · exact ih rfl t ht
  | plain h => exact absurd hc.symm h
  | escape h => exact absurd hc.symm h
  | nested h => exact absurd hc.symm h
  | brace h => exact absurd hc.symm h
  | dollar h => exact absurd hc.symm h

theorem Snd.singleQuoted {p : SourcePos} {k : List Token → P AIter B β}
    (h : ∀ u r, l = u ++ .SingleQuote :: r → (∀ t ∈ u, t ≠ .SingleQuote) → Snd (k u) r b Q2) :
    Snd (Conch.scan (fun it => takeSingleQuoted it p) >>= k) l b Q2 := by
  refine .region (by simp [Spec.Closer]) fun u r hl hb => h u r hl fun t ht => ?_
  exact body_squote hb (_, t) (List.mem_map.2 ⟨t, ht, rfl⟩)

theorem Snd.balanced {k : List Token → P AIter B β}
    (h : ∀ u r, l = u ++ r → Spec.TopUnit (anywhere u) (anywhere r) → Snd (k u) r b Q2) :
    Snd (Conch.scan takeBalanced >>= k) l b Q2 := by
  refine .scan ?_
  intro L e hL
  rcases unit_or_unclosed L with ⟨u, rest, rfl, hu⟩ | ⟨er, hu⟩
  · exact .inl ⟨toks u, rest, e, takeBalanced_unit hu e,
      h _ _ (by rw [← hL]; simp) (same_unit (anywhere_toks u) (anywhere_toks rest) hu)⟩
  · exact .inr ⟨er, by rw [takeBalanced_unclosed hu e]⟩

theorem Snd.dqDelim {p : SourcePos} {k : List Token → P AIter B β}
    (h : ∀ u r, l = u ++ .DoubleQuote :: r → Spec.Body .DoubleQuote (anywhere u) →
      Snd (k (dqUnquote u)) r b Q2) :
    Snd (Conch.scan (fun it => takeDqDelim it p) >>= k) l b Q2 := by
  refine .scan ?_
  intro L e hL
  rcases closed_or_unclosed L .DoubleQuote p (by simp [Spec.Closer]) with ⟨xs, q, ys, rfl, hb⟩ | ⟨er, hu⟩
  · refine .inl ⟨dqUnquote (toks xs), ys, e, ?_,
      h (toks xs) (toks ys) (by rw [← hL]; simp) (same_body (anywhere_toks xs) hb)⟩
    rw [← dqUnquote_eq]
    exact takeDqDelim_closed hb p q ys e
  · exact .inr ⟨er, by rw [takeDqDelim_unclosed hu e]⟩

theorem Snd.backtickRemoved {p : SourcePos} {k : List Token → P AIter B β}
    (h : ∀ u r, l = u ++ .Backtick :: r → Spec.Body .Backtick (anywhere u) →
      Snd (k (unescape u)) r b Q2) :
    Snd (Conch.scan (fun it => takeBacktickedRemoved it p) >>= k) l b Q2 := by
  refine .scan ?_
  intro L e hL
  rcases closed_or_unclosed L .Backtick p (by simp [Spec.Closer]) with ⟨xs, q, ys, rfl, hb⟩ | ⟨er, hu⟩
  · refine .inl ⟨unescape (toks xs), ys, e, ?_,
      h (toks xs) (toks ys) (by rw [← hL]; simp) (same_body (anywhere_toks xs) hb)⟩
    rw [← unescape_eq]
    exact takeRemoved_closed hb p q ys e
  · obtain ⟨it, h⟩ := takeRemoved_unclosed hu e
    exact .inr ⟨er, by rw [h]⟩

theorem Snd.backtick {R : Rec AIter B} {k : SimpleWordKind B.Command → P AIter B β}
    (h : ∀ u r, l = .Backtick :: u ++ .Backtick :: r → Spec.Body .Backtick (anywhere u) →
      Snd (R.group .default) (unescape u) b fun g _ b' => Snd (k (.CommandSubst g)) r b' Q2) :
    Snd (backtickedRaw R >>= k) l b Q2 := by
  refine .bind ?_
  unfold backtickedRaw
  refine .getPos fun p => .eat ?_
  rintro l' rfl
  intro L e hL a s' heq
  rcases closed_or_unclosed L .Backtick p (by simp [Spec.Closer]) with ⟨xs, q, ys, rfl, hb⟩ | ⟨er, hu⟩
  · obtain ⟨sub, h1, h2⟩ := subIter_toks hb p q ys e
    have hw : Snd (Conch.withIterRestore sub (R.group .default) >>= fun g =>
        Pure.pure (SimpleWordKind.CommandSubst g)) (toks ys) b fun a r b' => Snd (k a) r b' Q2 := by
      refine .bind (.withIterRestore (h2.trans (unescape_eq xs)) ?_)
      refine (h (toks xs) (toks ys) (by rw [← hL]; simp) (same_body (anywhere_toks xs) hb)).mono ?_
      intro g _ b' hg
      exact .pure hg
    refine hw ys e rfl a s' ?_
    rw [← heq]
    symm
    apply (bind_ok (a := SubIter.ok sub) (s' := st ys e b) _).trans rfl
    show ((Res.ok (tokenIterFromBackticked (⟨xs ++ (q, .Backtick) :: ys, e⟩ : AIter) p).1 :
      Res B.Error (SubIter AIter)), PSt.mk
        (tokenIterFromBackticked (⟨xs ++ (q, .Backtick) :: ys, e⟩ : AIter) p).2 b) = _
    rw [h1]
  · have h1 := subIter_unclosed hu e
    exfalso
    have h2 := Eq.trans (bind_ok (a := SubIter.unmatched er) (s' := st [] e b) (by
      show ((Res.ok (tokenIterFromBackticked (⟨L, e⟩ : AIter) p).1 :
        Res B.Error (SubIter AIter)), PSt.mk
        (tokenIterFromBackticked (⟨L, e⟩ : AIter) p).2 b) = _
      rw [h1])).symm heq
    cases h2

end
end Conch.Gram
