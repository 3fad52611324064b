import Verif.Hom
/-!
# Related parser runs

`Rel S H f m m'`: started in related states (streams related by `S`, builder states by `H`), `m`
and `m'` end in the same way: both return (the second the image under `f` of what the first
returns), or both fail with the same error, or both panic at the same place.
-/
namespace Conch

variable {I J : Type} [TokStream I] [TokStream J] {B C : Builder}

/-- Related states. -/
def SR (S : StreamSim I J) (H : Hom B C) (s : PSt I B) (s' : PSt J C) : Prop :=
  S.R s.it s'.it ∧ H.st s.b s'.b

/-- Related outcomes. -/
def Out (S : StreamSim I J) (H : Hom B C) {α β : Type} (f : α → β) :
    Res B.Error α × PSt I B → Res C.Error β × PSt J C → Prop
  | (.ok a, s), (.ok b, s') => b = f a ∧ SR S H s s'
  | (.err e, s), r => (H.soft ∧ ∃ c, e = .Custom c) ∨ ∃ s', r = (.err (e.map H.error), s') ∧ SR S H s s'
  | (.panic n, s), r => (H.esc ∧ n = 0) ∨ ∃ s', r = (.panic n, s') ∧ SR S H s s'
  | (.fuel, s), r => H.short ∨ ∃ s', r = (.fuel, s') ∧ SR S H s s'
  | _, _ => False

/-- See the module's documentation. -/
def Rel (S : StreamSim I J) (H : Hom B C) {α β : Type} (f : α → β) (m : P I B α) (m' : P J C β) :
    Prop :=
  ∀ s s', SR S H s s' → Out S H f (m s) (m' s')

/-- The map on a loop's steps. -/
def Step.map {σ τ α β : Type} (g : σ → τ) (f : α → β) : Step σ α → Step τ β
  | .cont x => .cont (g x)
  | .done a => .done (f a)

section
variable {S : StreamSim I J} {H : Hom B C} {α β γ δ σ τ : Type}

theorem rel_bind {g : α → γ} {f : β → δ} {m : P I B α} {m' : P J C γ} {k : α → P I B β}
    {k' : γ → P J C δ} (h : Rel S H g m m') (hk : ∀ a, Rel S H f (k a) (k' (g a))) :
    Rel S H f (m >>= k) (m' >>= k') := by
  intro s s' hs
  show Out S H f (P.bind m k s) (P.bind m' k' s')
  have h1 := h s s' hs
  unfold P.bind
  generalize m s = z at h1
  generalize m' s' = z' at h1
  obtain ⟨r, s1⟩ := z
  obtain ⟨r', s1'⟩ := z'
  cases r with
  | ok a =>
    cases r' with
    | ok b => obtain ⟨rfl, h2⟩ := h1; exact hk a s1 s1' h2
    | err _ => exact h1.elim
    | panic _ => exact h1.elim
    | fuel => exact h1.elim
  | err e =>
    rcases h1 with h1 | ⟨s2, h1, h2⟩
    · exact .inl h1
    · cases h1; exact .inr ⟨_, rfl, h2⟩
  | panic n =>
    rcases h1 with h1 | ⟨s2, h1, h2⟩
    · exact .inl h1
    · cases h1; exact .inr ⟨_, rfl, h2⟩
  | fuel =>
    rcases h1 with h1 | ⟨s2, h1, h2⟩
    · exact .inl h1
    · cases h1; exact .inr ⟨_, rfl, h2⟩

theorem rel_bind' {f : β → δ} {m : P I B α} {m' : P J C α} {k : α → P I B β}
    {k' : α → P J C δ} (h : Rel S H id m m') (hk : ∀ a, Rel S H f (k a) (k' a)) :
    Rel S H f (m >>= k) (m' >>= k') := rel_bind h hk

theorem rel_pure {f : α → β} {a : α} {b : β} (h : b = f a) : Rel S H f (pure a) (pure b) :=
  fun _ _ hs => ⟨h, hs⟩

theorem rel_fail {f : α → β} {e : ParseError B.Error} {e' : ParseError C.Error}
    (h : e' = e.map H.error) : Rel S H f (fail e) (fail e') :=
  fun _ s' hs => .inr ⟨s', by rw [← h]; rfl, hs⟩

theorem rel_panicAt {f : α → β} {n : Nat} : Rel S H f (panicAt n) (panicAt n) :=
  fun _ s' hs => .inr ⟨s', rfl, hs⟩

theorem rel_outOfFuel {f : α → β} : Rel S H f outOfFuel outOfFuel :=
  fun _ s' hs => .inr ⟨s', rfl, hs⟩

theorem rel_getPos : Rel S H id getPos getPos := fun _ _ hs => ⟨(S.pos hs.1).symm, hs⟩

theorem rel_peek : Rel S H id peek peek := fun _ _ hs =>
  ⟨(S.peek hs.1).1.symm, (S.peek hs.1).2, hs.2⟩

theorem rel_next : Rel S H id next next := fun _ _ hs =>
  ⟨(S.next hs.1).1.symm, (S.next hs.1).2, hs.2⟩

/-- Related look-aheads. -/
def MPRel (S : StreamSim I J) (g : TokStream.MP I → α × TokStream.MP I)
    (g' : TokStream.MP J → α × TokStream.MP J) : Prop :=
  ∀ m m', S.RM m m' → (g m).1 = (g' m').1 ∧ S.RM (g m).2 (g' m').2

theorem rel_lookahead {g : TokStream.MP I → α × TokStream.MP I}
    {g' : TokStream.MP J → α × TokStream.MP J} (h : MPRel S g g') :
    Rel S H id (lookahead g) (lookahead g') := fun _ _ hs =>
  ⟨(h _ _ (S.mpNew hs.1)).1.symm, S.mpDrop (h _ _ (S.mpNew hs.1)).2, hs.2⟩

theorem rel_scan {g : I → Collected × I} {g' : J → Collected × J}
    (h : ∀ i j, S.R i j → (g i).1 = (g' j).1 ∧ S.R (g i).2 (g' j).2) :
    Rel S H id (scan g) (scan g') := by
  intro s s' hs
  obtain ⟨h1, h2⟩ := h _ _ hs.1
  unfold scan
  simp only
  rw [h1]
  cases (g' s'.it).1 with
  | ok ts => exact ⟨rfl, h2, hs.2⟩
  | unmatched e => exact .inr ⟨_, rfl, h2, hs.2⟩
  | fuel => exact .inr ⟨_, rfl, h2, hs.2⟩

theorem rel_loopN {g : σ → τ} {f : α → β} {body : σ → P I B (Step σ α)}
    {body' : τ → P J C (Step τ β)}
    (h : ∀ x, Rel S H (Step.map g f) (body x) (body' (g x))) (n : Nat) :
    ∀ x, Rel S H f (loopN body n x) (loopN body' n (g x)) := by
  induction n with
  | zero => intro x; exact rel_outOfFuel
  | succ n ih =>
    intro x
    refine rel_bind (h x) ?_
    rintro (y | a)
    · exact ih y
    · exact rel_pure rfl

theorem rel_loop {g : σ → τ} {f : α → β} {body : σ → P I B (Step σ α)}
    {body' : τ → P J C (Step τ β)} {x : σ} {y : τ} (hx : y = g x)
    (h : ∀ x, Rel S H (Step.map g f) (body x) (body' (g x))) :
    Rel S H f (loop body x) (loop body' y) := by
  subst hx
  intro s s' hs
  unfold loop
  rw [S.len hs.1]
  exact rel_loopN h _ x s s' hs

theorem rel_withIterRestore {f : α → β} {i : I} {j : J} (hi : S.R i j) {m : P I B α}
    {m' : P J C β} (h : Rel S H f m m') :
    Rel S H f (withIterRestore i m) (withIterRestore j m') := by
  intro s s' hs
  have h1 := h { s with it := i } { s' with it := j } ⟨hi, hs.2⟩
  unfold withIterRestore
  generalize m { s with it := i } = z at h1 ⊢
  generalize m' { s' with it := j } = z' at h1 ⊢
  obtain ⟨r, s1⟩ := z
  obtain ⟨r', s1'⟩ := z'
  cases r with
  | panic n =>
    rcases h1 with h1 | ⟨s2, h1, h2⟩
    · exact .inl h1
    · cases h1; exact .inr ⟨_, rfl, hs.1, h2.2⟩
  | ok a => cases r' <;> first | exact h1.elim | exact ⟨h1.1, hs.1, h1.2.2⟩
  | err e =>
    rcases h1 with h1 | ⟨s2, h1, h2⟩
    · exact .inl h1
    · cases h1; exact .inr ⟨_, rfl, hs.1, h2.2⟩
  | fuel =>
    rcases h1 with h1 | ⟨s2, h1, h2⟩
    · exact .inl h1
    · cases h1; exact .inr ⟨_, rfl, hs.1, h2.2⟩

theorem rel_withIter {f : α → β} {i : I} {j : J} (hi : S.R i j) {m : P I B α}
    {m' : P J C β} (h : Rel S H f m m') :
    Rel S H f (withIter i m) (withIter j m') := by
  intro s s' hs
  have h1 := h { s with it := i } { s' with it := j } ⟨hi, hs.2⟩
  unfold withIter
  generalize m { s with it := i } = z at h1 ⊢
  generalize m' { s' with it := j } = z' at h1 ⊢
  obtain ⟨r, s1⟩ := z
  obtain ⟨r', s1'⟩ := z'
  cases r with
  | panic n =>
    rcases h1 with h1 | ⟨s2, h1, h2⟩
    · exact .inl h1
    · cases h1; exact .inr ⟨_, rfl, h2⟩
  | ok a => cases r' <;> first | exact h1.elim | exact ⟨h1.1, hs.1, h1.2.2⟩
  | err e =>
    rcases h1 with h1 | ⟨s2, h1, h2⟩
    · exact .inl h1
    · cases h1; exact .inr ⟨_, rfl, h2⟩
  | fuel =>
    rcases h1 with h1 | ⟨s2, h1, h2⟩
    · exact .inl h1
    · cases h1; exact .inr ⟨_, rfl, h2⟩

theorem rel_call (c : Call B.toBTypes) :
    Rel S H (c.mapRet H.toBMap) (call c) (call (c.map H.toBMap)) := by
  intro s s' hs
  have h := H.call c hs.2
  unfold call
  generalize B.call c s.b = z at h ⊢
  generalize C.call (c.map H.toBMap) s'.b = z' at h ⊢
  obtain ⟨r, b⟩ := z
  obtain ⟨r', b'⟩ := z'
  cases r with
  | panic =>
    rcases h with h | ⟨t, h, h2⟩
    · exact .inl ⟨h, rfl⟩
    · cases h; exact .inr ⟨_, rfl, hs.1, h2⟩
  | ok a => cases r' <;> first | exact h.elim | exact ⟨h.1, hs.1, h.2⟩
  | err e =>
    rcases h with h | ⟨t, h, h2⟩
    · exact .inl ⟨h, _, rfl⟩
    · cases h; exact .inr ⟨_, rfl, hs.1, h2⟩

/-- The first computations depend on the stream's length only. -/
theorem rel_len {f : α → β} {m : Nat → P I B α} {m' : Nat → P J C β}
    (h : ∀ n, Rel S H f (m n) (m' n)) (k : Nat) :
    Rel S H f (fun s => m (TokStream.len s.it + k) s) (fun s => m' (TokStream.len s.it + k) s) := by
  intro s s' hs
  simp only
  rw [S.len hs.1]
  exact h _ s s' hs

theorem rel_bufferFirst (ts : List Token) (p : SourcePos) :
    Rel S H id (bufferFirst ts p) (bufferFirst ts p) :=
  fun _ _ hs => ⟨rfl, S.bufferFirst ts p hs.1, hs.2⟩

end

attribute [irreducible] Rel

/-- Closes or advances a goal with a known lemma. Extended after every lemma below. -/
syntax "rel_lemma" : tactic

/-- Closes a goal about a single operation. -/
macro "rel_atom" : tactic => `(tactic| first
    | with_reducible rel_lemma
    | with_reducible exact rel_panicAt
    | with_reducible exact rel_outOfFuel
    | with_reducible exact rel_peek
    | with_reducible exact rel_next
    | with_reducible exact rel_getPos
    | with_reducible exact rel_bufferFirst _ _
    | (with_reducible refine rel_fail ?_); rfl
    | (with_reducible refine rel_pure ?_); rfl)

/-- One step of a proof that two instances of the same function are related. -/
macro "rel_step" : tactic => `(tactic| first
    | rel_atom
    | ((with_reducible refine rel_bind' ?h ?_); case h => rel_atom); intro _
    | ((with_reducible refine rel_bind (g := ?g) ?h ?_); case h => rel_atom); intro _
    | split)

/-- Runs `rel_step` until it does not apply any more. -/
macro "rel" : tactic => `(tactic| repeat' rel_step)

section
variable {S : StreamSim I J} {H : Hom B C} {α β : Type}

theorem rel_unexpected {f : α → β} : Rel S H f unexpected unexpected := by
  unfold unexpected
  rel
macro_rules | `(tactic| rel_lemma) => `(tactic| exact rel_unexpected)

theorem rel_eatMaybe (t : Token) : Rel S H id (eatMaybe t) (eatMaybe t) := by
  unfold eatMaybe
  rel
macro_rules | `(tactic| rel_lemma) => `(tactic| exact rel_eatMaybe _)

theorem rel_eat (t : Token) : Rel S H id (eat t) (eat t) := by
  unfold eat
  rel
macro_rules | `(tactic| rel_lemma) => `(tactic| exact rel_eat _)

end
end Conch
