import Verif.PropsLocal
/-!
# How often the builder is called: the calculus

A credit argument. Every token is worth `w`; consuming one sets `w` free and a call of the builder
costs 1. `Cn M w c m d`: started with the credit `c`, the computation `m` never runs out of credit,
and if it returns `a`, the credit `d a` is left.
-/
namespace Conch
open Spec

/-- A measure of the builder's state that a call increases by at most 1. -/
structure Meter (B : Builder) where
  μ : B.State → Nat
  step : ∀ c b, μ (B.call c b).2 ≤ μ b + 1

namespace Cost

section
variable {B : Builder} {M : Meter B} {w : Nat} {α β σ : Type}

/-- What the credit `n` (tokens included) allows as an outcome. -/
structure Within (M : Meter B) (w : Nat) (d : α → Nat) (n : Nat) (z : Res B.Error α × PSt AIter B) : Prop where
  ok : ∀ a, z.1 = .ok a → M.μ z.2.b + w * z.2.len + d a ≤ n
  any : M.μ z.2.b ≤ n

/-- See the head of this file. -/
def Cn (M : Meter B) (w c : Nat) (m : P AIter B α) (d : α → Nat) : Prop :=
  ∀ s, Within M w d (M.μ s.b + w * s.len + c) (m s)

theorem within_ok {d : α → Nat} {n : Nat} {a : α} {s : PSt AIter B} (h : M.μ s.b + w * s.len + d a ≤ n) :
    Within M w d n (.ok a, s) :=
  ⟨fun a' e => by cases e; exact h, by show M.μ s.b ≤ n; omega⟩

theorem within_err {d : α → Nat} {n : Nat} {r : Res B.Error α} {s : PSt AIter B} (hr : ∀ a, r ≠ .ok a)
    (h : M.μ s.b ≤ n) : Within M w d n (r, s) :=
  ⟨fun a' e => absurd e (hr a'), h⟩

theorem Within.le {d : α → Nat} {n : Nat} {a : α} {s : PSt AIter B} (h : Within M w d n (.ok a, s)) :
    M.μ s.b + w * s.len + d a ≤ n := h.ok a rfl

theorem Within.mono {d d' : α → Nat} {n n' : Nat} {z : Res B.Error α × PSt AIter B} (h : Within M w d n z)
    (hn : n ≤ n') (hd : ∀ a, n + d' a ≤ n' + d a) : Within M w d' n' z :=
  ⟨fun a e => by have := h.ok a e; have := hd a; omega, Nat.le_trans h.any hn⟩

theorem cn_pure {c : Nat} {d : α → Nat} {a : α} (h : d a ≤ c) : Cn M w c (pure a : P AIter B α) d :=
  fun s => within_ok (by omega)

theorem cn_bind {c : Nat} {m : P AIter B α} {f : α → P AIter B β} {d1 : α → Nat} {d : β → Nat}
    (h1 : Cn M w c m d1) (h2 : ∀ a, Cn M w (d1 a) (f a) d) : Cn M w c (m >>= f) d := by
  intro s
  have h1 := h1 s
  show Within M w d _ (P.bind m f s)
  unfold P.bind
  generalize m s = z at h1
  obtain ⟨r, s1⟩ := z
  cases r with
  | ok a => exact (h2 a s1).mono h1.le fun _ => Nat.add_le_add_right h1.le _
  | err e => exact within_err (by simp) h1.any
  | panic n => exact within_err (by simp) h1.any
  | fuel => exact within_err (by simp) h1.any

theorem Cn.mono {c c' : Nat} {m : P AIter B α} {d d' : α → Nat} (h : Cn M w c m d) (hc : c ≤ c')
    (hd : ∀ a, d' a ≤ d a + (c' - c)) : Cn M w c' m d' :=
  fun s => (h s).mono (by omega) fun a => by have := hd a; omega

theorem Cn.weaken {c : Nat} {m : P AIter B α} {d d' : α → Nat} (h : Cn M w c m d) (hd : ∀ a, d' a ≤ d a) :
    Cn M w c m d' := h.mono (Nat.le_refl _) fun a => by have := hd a; omega

/-- A computation that changes no credit. -/
theorem cn_same {c : Nat} {m : P AIter B α} (h : ∀ s, M.μ (m s).2.b = M.μ s.b ∧
    ∀ a, (m s).1 = .ok a → (m s).2.len ≤ s.len) : Cn M w c m (fun _ => c) := by
  intro s
  have h := h s
  generalize m s = z at h
  refine ⟨fun a e => ?_, by omega⟩
  have := Nat.mul_le_mul_left w (h.2 a e)
  omega

theorem cn_fail {c : Nat} {d : α → Nat} {e : ParseError B.Error} : Cn M w c (fail e : P AIter B α) d :=
  fun s => within_err (by simp) (by omega)

theorem cn_panicAt {c : Nat} {d : α → Nat} {n : Nat} : Cn M w c (panicAt n : P AIter B α) d :=
  fun s => within_err (by simp) (by omega)

theorem cn_outOfFuel {c : Nat} {d : α → Nat} : Cn M w c (outOfFuel : P AIter B α) d :=
  fun s => within_err (by simp) (by omega)

theorem cn_getPos {c : Nat} : Cn M w c (getPos : P AIter B SourcePos) (fun _ => c) :=
  fun s => within_ok (by omega)

theorem cn_peek {c : Nat} : Cn M w c (peek : P AIter B _) (fun _ => c) :=
  fun s => within_ok (by show M.μ s.b + w * s.len + c ≤ _; omega)

/-- What a value that shows that a token was consumed is worth. -/
def worth (w : Nat) : Option α → Nat
  | some _ => w
  | none => 0

@[simp] theorem worth_some {a : α} : worth w (some a) = w := rfl
@[simp] theorem worth_none : worth w (none : Option α) = 0 := rfl

theorem cn_next {c : Nat} : Cn M w c (next : P AIter B _) (fun t => c + worth w t) := by
  rintro ⟨⟨l, e⟩, b⟩
  cases l with
  | nil => exact within_ok (Nat.le_refl _)
  | cons x l =>
    refine within_ok ?_
    show M.μ b + w * l.length + (c + w) ≤ M.μ b + w * (l.length + 1) + c
    rw [Nat.mul_add]
    omega

theorem cn_call (c : Nat) (x : Call B.toBTypes) : Cn M w (c + 1) (call x : P AIter B x.Ret) (fun _ => c) := by
  intro s
  have h := M.step x s.b
  unfold call
  generalize B.call x s.b = z at h
  obtain ⟨r, b⟩ := z
  simp only at h
  cases r with
  | ok a => exact within_ok (by show M.μ b + w * s.len + _ ≤ _; omega)
  | err e => exact within_err (by simp) (by show M.μ b ≤ _; omega)
  | panic => exact within_err (by simp) (by show M.μ b ≤ _; omega)

/-- A call is paid with part of the credit. -/
theorem cn_pay {c : Nat} (x : Call B.toBTypes) (h : 1 ≤ c) : Cn M w c (call x : P AIter B x.Ret) (fun _ => c - 1) := by
  obtain ⟨c, rfl⟩ : ∃ k, c = k + 1 := ⟨c - 1, by omega⟩
  exact cn_call c x

theorem cn_lookahead {c : Nat} {f : TokStream.MP AIter → α × TokStream.MP AIter}
    (h : ∀ m : AMultipeek, (f m).2.it = m.it) : Cn M w c (lookahead (I := AIter) f : P AIter B α) (fun _ => c) := by
  intro s
  refine within_ok ?_
  show M.μ s.b + w * ((f (TokStream.mpNew s.it)).2 : AMultipeek).it.rest.length + c ≤ _
  rw [h (TokStream.mpNew s.it)]
  exact Nat.le_refl _

/-- What is left after a step of a loop with the invariant `J`. -/
def onStep (J : σ → Nat) (d : α → Nat) : Step σ α → Nat
  | .cont y => J y
  | .done a => d a

@[simp] theorem onStep_cont {J : σ → Nat} {d : α → Nat} {y : σ} : onStep J d (.cont y) = J y := rfl
@[simp] theorem onStep_done {J : σ → Nat} {d : α → Nat} {a : α} : onStep J d (.done a) = d a := rfl

theorem cn_loop (J : σ → Nat) {c : Nat} {d : α → Nat} {body : σ → P AIter B (Step σ α)} {x : σ}
    (h : ∀ x, Cn M w (J x) (body x) (onStep J d)) (hx : J x ≤ c := by simp) : Cn M w c (loop body x) d := by
  have key : ∀ n x, Cn M w (J x) (loopN body n x) d := by
    intro n
    induction n with
    | zero => intro x; exact cn_outOfFuel
    | succ n ih =>
      intro x
      refine cn_bind (h x) ?_
      rintro (y | a)
      · exact ih y
      · exact cn_pure (Nat.le_refl _)
  exact fun s => (key _ x s).mono (by omega) fun a => by omega

theorem bind_assoc {γ : Type} (m : P AIter B α) (f : α → P AIter B β) (g : β → P AIter B γ) :
    (m >>= f) >>= g = m >>= fun a => f a >>= g := by
  funext s
  show P.bind (P.bind m f) g s = P.bind m (fun a => P.bind (f a) g) s
  unfold P.bind
  generalize m s = z
  obtain ⟨r, s1⟩ := z
  cases r <;> rfl

/-- The tokens of another stream are paid with the credit. -/
theorem cn_withIterRestore {c n : Nat} {i : AIter} {m : P AIter B α} (hn : i.rest.length ≤ n)
    (h : Cn M w c m (fun _ => c)) : Cn M w (c + w * n) (withIterRestore i m) (fun _ => c) := by
  intro s
  have h := h { s with it := i }
  unfold withIterRestore
  generalize m { s with it := i } = z at h
  obtain ⟨r, s1⟩ := z
  have hl := Nat.mul_le_mul_left w hn
  have h1 : ({ s with it := i } : PSt AIter B).len = i.rest.length := rfl
  rw [h1] at h
  refine ⟨fun a e => ?_, ?_⟩
  · have h := h.ok a e
    simp only at h ⊢
    show M.μ s1.b + w * s.len + c ≤ _
    omega
  · have h := h.any
    simp only at h ⊢
    omega

theorem cn_withIter {c n : Nat} {i : AIter} {m : P AIter B α} (hn : i.rest.length ≤ n)
    (h : Cn M w c m (fun _ => c)) : Cn M w (c + w * n) (withIter i m) (fun _ => c) := by
  intro s
  have h := h { s with it := i }
  unfold withIter
  generalize m { s with it := i } = z at h
  obtain ⟨r, s1⟩ := z
  have hl := Nat.mul_le_mul_left w hn
  have h1 : ({ s with it := i } : PSt AIter B).len = i.rest.length := rfl
  rw [h1] at h
  have h2 := h.any
  simp only at h2
  cases r with
  | ok a =>
    refine within_ok ?_
    have h : M.μ s1.b + w * s1.len + c ≤ M.μ s.b + w * i.rest.length + c := h.le
    show M.μ s1.b + w * s.len + c ≤ _
    omega
  | err e => exact within_err (by simp) (by omega)
  | panic e => exact within_err (by simp) (by omega)
  | fuel => exact within_err (by simp) (by omega)

/-- Without calls, another stream costs nothing. -/
theorem cn_quietRestore {c : Nat} {i : AIter} {m : P AIter B α} (h : Cn M 0 0 m (fun _ => 0)) :
    Cn M w c (withIterRestore i m) (fun _ => c) := by
  intro s
  have h := (h { s with it := i }).any
  unfold withIterRestore
  generalize m { s with it := i } = z at h
  obtain ⟨r, s1⟩ := z
  simp only [Nat.zero_mul, Nat.add_zero] at h
  refine ⟨fun a e => ?_, ?_⟩
  · show M.μ s1.b + w * s.len + c ≤ _
    omega
  · show M.μ s1.b ≤ _
    omega

/-- Scans set the tokens they return free. -/
theorem cn_scan {c : Nat} {f : AIter → Collected × AIter} {k : List Token → Nat}
    (h : ∀ i ts, (f i).1 = .ok ts → (f i).2.rest.length + k ts ≤ i.rest.length) :
    Cn M w c (scan f : P AIter B _) (fun ts => c + w * k ts) := by
  intro s
  have h := h s.it
  unfold scan
  generalize f s.it = z at h
  obtain ⟨r, i⟩ := z
  cases r with
  | ok ts =>
    refine within_ok ?_
    have h := Nat.mul_le_mul_left w (h ts rfl)
    rw [Nat.mul_add] at h
    show M.μ s.b + w * i.rest.length + _ ≤ M.μ s.b + w * s.it.rest.length + c
    simp only at h
    omega
  | unmatched e => exact within_err (by simp) (by show M.μ s.b ≤ _; omega)
  | fuel => exact within_err (by simp) (by show M.μ s.b ≤ _; omega)

theorem cn_bufferFirst {c : Nat} {ts : List Token} {p : SourcePos} :
    Cn M w (c + w * ts.length) (bufferFirst ts p : P AIter B Unit) (fun _ => c) := by
  intro s
  refine within_ok ?_
  show M.μ s.b + w * (AIter.bufferFirst s.it ts p).rest.length + c ≤ M.μ s.b + w * s.it.rest.length + _
  have : (AIter.bufferFirst s.it ts p).rest.length = ts.length + s.it.rest.length := by
    have := congrArg List.length (annotate_toks p ts)
    simp only [List.length_map] at this
    simp [AIter.bufferFirst, this]
  rw [this, Nat.mul_add]
  omega

/-- The budget may depend on the length of the stream. -/
theorem cn_len {c k : Nat} {d : α → Nat} {m : Nat → P AIter B α} (h : ∀ n, Cn M w c (m n) d) :
    Cn M w c (fun s => m (TokStream.len s.it + k) s) d := fun s => h _ s

theorem cn_unexpected {c : Nat} {d : α → Nat} : Cn M w c (unexpected : P AIter B α) d := by
  refine cn_bind cn_getPos fun _ => cn_bind cn_next fun t => ?_
  cases t with
  | none => exact cn_fail
  | some t => exact cn_fail

end

attribute [irreducible] Cn

/-! ## Automation -/

/-- Closes a goal with a known lemma. Extended after every lemma below. -/
syntax "cn_lemma" : tactic

/-- Closes a goal about a single operation. -/
macro "cn_atom" : tactic => `(tactic| first
    | with_reducible cn_lemma
    | with_reducible exact cn_peek
    | with_reducible exact cn_next
    | with_reducible exact cn_getPos
    | ((with_reducible refine cn_pay _ ?_); (first | omega | (simp_all; omega) | simp_all)))

/-- The side conditions on the credit. -/
macro "cn_side" : tactic => `(tactic| first
    | (intros; omega)
    | (intros; simp; done)
    | (intros; simp; omega)
    | (intros; simp_all; done)
    | (intros; simp_all; omega))

/-- One step. -/
macro "cn_step" : tactic => `(tactic| first
    | with_reducible exact cn_panicAt
    | with_reducible exact cn_outOfFuel
    | with_reducible exact cn_unexpected
    | with_reducible exact cn_fail
    | ((with_reducible refine cn_pure ?_); cn_side)
    | ((with_reducible refine Cn.weaken (d := ?d) ?h ?_); (case h => cn_atom); cn_side)
    | (((with_reducible refine cn_bind (d1 := ?d) ?h ?_); (case h => cn_atom)); intro _)
    | split)

/-- Runs `cn_step` until it does not apply any more. -/
macro "cn" : tactic => `(tactic| repeat' cn_step)

section
variable {B : Builder} {M : Meter B} {w c : Nat}

/-- What `true` is worth. -/
def worthB (w : Nat) (b : Bool) : Nat := if b then w else 0

@[simp] theorem worthB_true : worthB w true = w := rfl
@[simp] theorem worthB_false : worthB w false = 0 := rfl

theorem cn_eatMaybe (t : Token) : Cn M w c (eatMaybe t : P AIter B _) (fun b => c + worthB w b) := by
  unfold Cn
  rintro ⟨⟨l, e⟩, b⟩
  cases l with
  | nil => exact within_ok (Nat.le_refl _)
  | cons x l =>
    unfold eatMaybe
    rw [peek_bind]
    split
    · refine within_ok ?_
      show M.μ b + w * l.length + (c + w) ≤ M.μ b + w * (l.length + 1) + c
      rw [Nat.mul_add]
      omega
    · exact within_ok (Nat.le_refl _)
macro_rules | `(tactic| cn_lemma) => `(tactic| exact cn_eatMaybe _)

theorem cn_eat (t : Token) : Cn M w c (eat t : P AIter B _) (fun _ => c + w) := by
  unfold eat
  cn
macro_rules | `(tactic| cn_lemma) => `(tactic| exact cn_eat _)

end
end Cost
end Conch
