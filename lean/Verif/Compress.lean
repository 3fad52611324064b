import Verif.Builder
/-!
# Merging of adjacent word fragments (default_builder.rs:705-810)
-/
namespace Conch

/-- `CoalesceResult`, default_builder.rs:725. -/
abbrev CoalesceResult (α : Type) := Except (α × α) α

/-- `Coalesce`, default_builder.rs:706-710 (the function is passed separately). -/
structure Coalesce (α : Type) where
  iter : List α
  cur : Option α

namespace Coalesce
variable {α : Type}

/-- `Coalesce::new`, default_builder.rs:713-722. -/
def new (l : List α) : Coalesce α := { iter := l, cur := none }

/-- The loop of `next`, default_builder.rs:741-757. -/
def loop (f : α → α → CoalesceResult α) (left right : α) : List α → α × Coalesce α
  | [] =>
    match f left right with
    | .ok c => (c, { iter := [], cur := none })
    | .error (l, r) => (l, { iter := [], cur := some r })
  | x :: xs =>
    match f left right with
    | .ok c => loop f c x xs
    | .error (l, r) => (l, { iter := x :: xs, cur := some r })

/-- `Coalesce::next`, default_builder.rs:733-758. -/
def next (f : α → α → CoalesceResult α) (s : Coalesce α) : Option α × Coalesce α :=
  match s.cur, s.iter with
  | some l, r :: rest => let (x, s) := loop f l r rest; (some x, s)
  | some l, [] => (some l, { iter := [], cur := none })
  | none, l :: r :: rest => let (x, s) := loop f l r rest; (some x, s)
  | none, [l] => (some l, { iter := [], cur := none })
  | none, [] => (none, s)

/-- The first `n` items of the iterator at default_builder.rs:726-759. -/
def collectN (f : α → α → CoalesceResult α) : Nat → Coalesce α → List α
  | 0, _ => []
  | n + 1, s =>
    match next f s with
    | (some x, s) => x :: collectN f n s
    | (none, _) => []

/-- `Coalesce::new(..).collect()`, default_builder.rs:799 and 802: there are at most as many items as elements. -/
def collect (f : α → α → CoalesceResult α) (l : List α) : List α := collectN f l.length (new l)

end Coalesce

variable {C : Type}

/-- `coalesce_simple`, default_builder.rs:766-777. -/
def coalesceSimple : SimpleWordKind C → SimpleWordKind C → CoalesceResult (SimpleWordKind C)
  | .Literal a, .Literal b => .ok (.Literal (a ++ b))
  | a, b => .error (a, b)

/-- `coalesce_word`, default_builder.rs:779-794. -/
def coalesceWord : WordKind C → WordKind C → CoalesceResult (WordKind C)
  | .Simple a, .Simple b =>
    match coalesceSimple a b with
    | .ok c => .ok (.Simple c)
    | .error (a, b) => .error (.Simple a, .Simple b)
  | .SingleQuoted a, .SingleQuoted b => .ok (.SingleQuoted (a ++ b))
  | .DoubleQuoted a, .DoubleQuoted b =>
    .ok (.DoubleQuoted (Coalesce.collect coalesceSimple (a ++ b)))
  | a, b => .error (a, b)

/-- `compress`, default_builder.rs:761-810. -/
def compress : ComplexWordKind C → ComplexWordKind C
  | .Single (.DoubleQuoted v) => .Single (.DoubleQuoted (Coalesce.collect coalesceSimple v))
  | .Single s => .Single s
  | .Concat v =>
    match Coalesce.collect coalesceWord v with
    | [w] => .Single w
    | ws => .Concat ws

/-! ## `collect` as a recursion on the list -/

/-- Specification: fold an element into the following ones as long as the function merges. -/
def mergeFrom {α : Type} (f : α → α → CoalesceResult α) : α → List α → List α
  | x, [] => [x]
  | x, y :: ys =>
    match f x y with
    | .ok c => mergeFrom f c ys
    | .error (l, r) => l :: mergeFrom f r ys

/-- Specification of `collect`. -/
def merge {α : Type} (f : α → α → CoalesceResult α) : List α → List α
  | [] => []
  | x :: xs => mergeFrom f x xs

theorem Coalesce.collectN_some {α : Type} (f : α → α → CoalesceResult α) (xs : List α) :
    ∀ (n : Nat) (x : α), xs.length < n →
      collectN f n { iter := xs, cur := some x } = mergeFrom f x xs := by
  suffices H : ∀ (m : Nat) (xs : List α) (n : Nat) (x : α), xs.length ≤ m → xs.length < n →
      collectN f n { iter := xs, cur := some x } = mergeFrom f x xs from
    fun n x h => H xs.length xs n x (Nat.le_refl _) h
  intro m
  -- the loop: one item, then the rest
  have hl : ∀ (m : Nat), (∀ (xs : List α) (n : Nat) (x : α), xs.length < m → xs.length < n →
      collectN f n { iter := xs, cur := some x } = mergeFrom f x xs) →
      ∀ (zs : List α) (x y : α) (n : Nat), zs.length < m → zs.length < n →
      (Coalesce.loop f x y zs).1 :: collectN f n (Coalesce.loop f x y zs).2
        = mergeFrom f x (y :: zs) := by
    intro m ih zs
    induction zs with
    | nil =>
      intro x y n _ hn
      unfold Coalesce.loop mergeFrom
      cases hf : f x y with
      | ok c =>
        cases n with
        | zero => omega
        | succ n => simp [collectN, next, mergeFrom]
      | error p =>
        obtain ⟨l, r⟩ := p
        simp only
        rw [ih [] n r (by simpa using ‹[].length < m›) hn]
    | cons z zs ihz =>
      intro x y n hm hn
      unfold Coalesce.loop mergeFrom
      cases hf : f x y with
      | ok c =>
        simp only
        exact ihz c z n (by simp at hm; omega) (by simp at hn; omega)
      | error p =>
        obtain ⟨l, r⟩ := p
        simp only
        rw [ih (z :: zs) n r hm hn]
  induction m with
  | zero =>
    intro xs n x h1 h2
    cases xs with
    | nil =>
      cases n with
      | zero => simp at h2
      | succ n => cases n <;> simp [collectN, next, mergeFrom]
    | cons => simp at h1
  | succ m ih =>
    intro xs n x h1 h2
    cases xs with
    | nil =>
      cases n with
      | zero => simp at h2
      | succ n => cases n <;> simp [collectN, next, mergeFrom]
    | cons y ys =>
      cases n with
      | zero => simp at h2
      | succ n =>
        simp only [collectN, next]
        exact hl (m + 1) (fun xs n x h1 h2 => ih xs n x (by omega) h2) ys x y n
          (by simp at h1; omega) (by simp at h2; omega)

/-- `Coalesce` as an iterator yields exactly the merged list. -/
theorem Coalesce.collect_eq {α : Type} (f : α → α → CoalesceResult α) (l : List α) :
    collect f l = merge f l := by
  cases l with
  | nil => rfl
  | cons x xs =>
    have h := collectN_some f xs (xs.length + 1) x (by omega)
    rw [merge, ← h]
    cases xs <;> rfl

end Conch
