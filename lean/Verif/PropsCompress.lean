import Verif.PropsBuilder
/-!
# Property C32: merging of adjacent fragments of a word

`Spec.Joined` is the specification: a list obtained from another by joining neighbours, one pair at
a time.
-/
namespace Conch

namespace Spec

/-- `Joined J l m`: `m` results from `l` by replacing, any number of times, two neighbours `a`, `b`
with a `c` such that `J a b c`. -/
inductive Joined {α : Type} (J : α → α → α → Prop) : List α → List α → Prop
  | refl (l) : Joined J l l
  | step {l₁ a b c l₂ m} : J a b c → Joined J (l₁ ++ c :: l₂) m → Joined J (l₁ ++ a :: b :: l₂) m

variable {C : Type}

/-- Two literals are joined into the literal with the text of both. -/
inductive JoinSimple : SimpleWordKind C → SimpleWordKind C → SimpleWordKind C → Prop
  | literal (a b : Str) : JoinSimple (.Literal a) (.Literal b) (.Literal (a ++ b))

/-- Two unquoted literals, two single-quoted strings, or two double-quoted strings are joined. -/
inductive JoinWord : WordKind C → WordKind C → WordKind C → Prop
  | literal (a b : Str) :
      JoinWord (.Simple (.Literal a)) (.Simple (.Literal b)) (.Simple (.Literal (a ++ b)))
  | singleQuoted (a b : Str) : JoinWord (.SingleQuoted a) (.SingleQuoted b) (.SingleQuoted (a ++ b))
  | doubleQuoted {a b c : List (SimpleWordKind C)} : Joined JoinSimple (a ++ b) c →
      JoinWord (.DoubleQuoted a) (.DoubleQuoted b) (.DoubleQuoted c)

/-- The parts of a word. -/
def parts : ComplexWordKind C → List (WordKind C)
  | .Concat ws => ws
  | .Single w => [w]

/-- Neighbours that could be joined. -/
def Mergeable : WordKind C → WordKind C → Prop
  | .Simple (.Literal _), .Simple (.Literal _) => True
  | .SingleQuoted _, .SingleQuoted _ => True
  | .DoubleQuoted _, .DoubleQuoted _ => True
  | _, _ => False

/-- The same for the parts of a double-quoted string. -/
def MergeableSimple : SimpleWordKind C → SimpleWordKind C → Prop
  | .Literal _, .Literal _ => True
  | _, _ => False

/-- What a word says, character by character: every character of literal text and every other
fragment, in order, with the way it is quoted. -/
inductive Atom (C : Type)
  | char (c : Char)
  | other (s : SimpleWordKind C)

/-- The atoms of a simple fragment. -/
def atomsSimple : SimpleWordKind C → List (Atom C)
  | .Literal s => s.map .char
  | s => [.other s]

/-- How a fragment is quoted. -/
inductive Quoting | unquoted | single | double

/-- The atoms of a part. -/
def atomsWord : WordKind C → List (Quoting × Atom C)
  | .Simple s => (atomsSimple s).map (.unquoted, ·)
  | .SingleQuoted s => s.map (.single, .char ·)
  | .DoubleQuoted ss => (ss.flatMap atomsSimple).map (.double, ·)

/-- The atoms of a word. -/
def atoms (w : ComplexWordKind C) : List (Quoting × Atom C) := (parts w).flatMap atomsWord

end Spec
open Spec

section
variable {α : Type} {J : α → α → α → Prop}

theorem Spec.Joined.cons {l m : List α} (x : α) (h : Joined J l m) : Joined J (x :: l) (x :: m) := by
  induction h with
  | refl => exact .refl _
  | @step l₁ a b c l₂ m hj _ ih => exact .step (l₁ := x :: l₁) hj ih

theorem Spec.Joined.trans {l m k : List α} (h : Joined J l m) (h' : Joined J m k) : Joined J l k := by
  induction h with
  | refl => exact h'
  | step hj _ ih => exact .step hj (ih h')

theorem mergeFrom_joined {f : α → α → CoalesceResult α}
    (hok : ∀ a b c, f a b = .ok c → J a b c)
    (herr : ∀ a b l r, f a b = .error (l, r) → l = a ∧ r = b) (xs : List α) :
    ∀ x, Joined J (x :: xs) (mergeFrom f x xs) := by
  induction xs with
  | nil => intro x; exact .refl _
  | cons y ys ih =>
    intro x
    unfold mergeFrom
    cases hf : f x y with
    | ok c => exact .step (l₁ := []) (hok _ _ _ hf) (ih c)
    | error p =>
      obtain ⟨l, r⟩ := p
      obtain ⟨rfl, rfl⟩ := herr _ _ _ _ hf
      exact (ih r).cons l

theorem merge_joined {f : α → α → CoalesceResult α}
    (hok : ∀ a b c, f a b = .ok c → J a b c)
    (herr : ∀ a b l r, f a b = .error (l, r) → l = a ∧ r = b) (xs : List α) :
    Joined J xs (merge f xs) := by
  cases xs with
  | nil => exact .refl _
  | cons x xs => exact mergeFrom_joined hok herr xs x

/-- `M` decides merging and only depends on something that merging keeps. -/
theorem mergeFrom_chain {f : α → α → CoalesceResult α} {M : α → α → Prop}
    (hok : ∀ a b c, f a b = .ok c → ∀ z, (M z c ↔ M z a))
    (herr : ∀ a b l r, f a b = .error (l, r) → l = a ∧ r = b ∧ ¬ M a b) (xs : List α) :
    ∀ x, List.IsChain (fun a b => ¬ M a b) (mergeFrom f x xs) ∧
      ∃ y ys, mergeFrom f x xs = y :: ys ∧ ∀ z, (M z y ↔ M z x) := by
  induction xs with
  | nil => intro x; exact ⟨by simp [mergeFrom], x, [], rfl, fun _ => Iff.rfl⟩
  | cons y ys ih =>
    intro x
    unfold mergeFrom
    cases hf : f x y with
    | ok c =>
      obtain ⟨h1, w, ws, h2, h3⟩ := ih c
      exact ⟨h1, w, ws, h2, fun z => (h3 z).trans (hok _ _ _ hf z)⟩
    | error p =>
      obtain ⟨l, r⟩ := p
      obtain ⟨rfl, rfl, hn⟩ := herr _ _ _ _ hf
      obtain ⟨h1, w, ws, h2, h3⟩ := ih r
      refine ⟨?_, l, _, rfl, fun _ => Iff.rfl⟩
      simp only
      rw [h2] at h1 ⊢
      exact List.isChain_cons_cons.2 ⟨fun h => hn ((h3 l).1 h), h1⟩

theorem merge_chain {f : α → α → CoalesceResult α} {M : α → α → Prop}
    (hok : ∀ a b c, f a b = .ok c → ∀ z, (M z c ↔ M z a))
    (herr : ∀ a b l r, f a b = .error (l, r) → l = a ∧ r = b ∧ ¬ M a b) (xs : List α) :
    List.IsChain (fun a b => ¬ M a b) (merge f xs) := by
  cases xs with
  | nil => exact List.isChain_nil
  | cons x xs => exact (mergeFrom_chain hok herr xs x).1

theorem mergeFrom_fixed {f : α → α → CoalesceResult α} {M : α → α → Prop}
    (h : ∀ a b, ¬ M a b → f a b = .error (a, b)) (xs : List α) :
    ∀ x, List.IsChain (fun a b => ¬ M a b) (x :: xs) → mergeFrom f x xs = x :: xs := by
  induction xs with
  | nil => intro x _; rfl
  | cons y ys ih =>
    intro x hc
    obtain ⟨h1, h2⟩ := List.isChain_cons_cons.1 hc
    unfold mergeFrom
    rw [h x y h1]
    simp only [ih y h2]

theorem merge_fixed {f : α → α → CoalesceResult α} {M : α → α → Prop}
    (h : ∀ a b, ¬ M a b → f a b = .error (a, b)) (xs : List α)
    (hc : List.IsChain (fun a b => ¬ M a b) xs) : merge f xs = xs := by
  cases xs with
  | nil => rfl
  | cons x xs => exact mergeFrom_fixed h xs x hc

end

section
variable {C : Type}

theorem coalesceSimple_ok {a b c : SimpleWordKind C} (h : coalesceSimple a b = .ok c) :
    ∃ s t, a = .Literal s ∧ b = .Literal t ∧ c = .Literal (s ++ t) := by
  unfold coalesceSimple at h
  split at h
  · cases h; exact ⟨_, _, rfl, rfl, rfl⟩
  · cases h

theorem coalesceSimple_err {a b l r : SimpleWordKind C} (h : coalesceSimple a b = .error (l, r)) :
    l = a ∧ r = b ∧ ¬ MergeableSimple a b := by
  unfold coalesceSimple at h
  split at h
  · cases h
  · rename_i hn
    cases h
    refine ⟨rfl, rfl, ?_⟩
    unfold MergeableSimple
    split
    · exact absurd rfl (hn _ _ rfl)
    · simp

theorem coalesceSimple_not {a b : SimpleWordKind C} (h : ¬ MergeableSimple a b) :
    coalesceSimple a b = .error (a, b) := by
  unfold coalesceSimple
  split
  · exact absurd trivial h
  · rfl

theorem collectSimple_joined (v : List (SimpleWordKind C)) :
    Joined JoinSimple v (Coalesce.collect coalesceSimple v) := by
  rw [Coalesce.collect_eq]
  refine merge_joined ?_ (fun a b l r h => ⟨(coalesceSimple_err h).1, (coalesceSimple_err h).2.1⟩) v
  intro a b c h
  obtain ⟨s, t, rfl, rfl, rfl⟩ := coalesceSimple_ok h
  exact .literal s t

theorem collectSimple_chain (v : List (SimpleWordKind C)) :
    List.IsChain (fun a b => ¬ MergeableSimple a b) (Coalesce.collect coalesceSimple v) := by
  rw [Coalesce.collect_eq]
  refine merge_chain ?_ (fun a b l r h => coalesceSimple_err h) v
  intro a b c h z
  obtain ⟨s, t, rfl, rfl, rfl⟩ := coalesceSimple_ok h
  cases z <;> simp [MergeableSimple]

theorem collectSimple_fixed {v : List (SimpleWordKind C)}
    (h : List.IsChain (fun a b => ¬ MergeableSimple a b) v) :
    Coalesce.collect coalesceSimple v = v := by
  rw [Coalesce.collect_eq]
  exact merge_fixed (fun a b h => coalesceSimple_not h) v h

theorem coalesceWord_ok {a b c : WordKind C} (h : coalesceWord a b = .ok c) :
    (∃ s t, a = .Simple (.Literal s) ∧ b = .Simple (.Literal t) ∧ c = .Simple (.Literal (s ++ t))) ∨
    (∃ s t, a = .SingleQuoted s ∧ b = .SingleQuoted t ∧ c = .SingleQuoted (s ++ t)) ∨
    (∃ s t, a = .DoubleQuoted s ∧ b = .DoubleQuoted t ∧
      c = .DoubleQuoted (Coalesce.collect coalesceSimple (s ++ t))) := by
  unfold coalesceWord at h
  split at h
  · split at h
    · rename_i hc
      cases h
      obtain ⟨s, t, rfl, rfl, rfl⟩ := coalesceSimple_ok hc
      exact .inl ⟨s, t, rfl, rfl, rfl⟩
    · cases h
  · cases h; exact .inr (.inl ⟨_, _, rfl, rfl, rfl⟩)
  · cases h; exact .inr (.inr ⟨_, _, rfl, rfl, rfl⟩)
  · cases h

theorem coalesceWord_not {a b : WordKind C} (h : ¬ Mergeable a b) :
    coalesceWord a b = .error (a, b) := by
  unfold coalesceWord
  split
  · rename_i x y
    rw [coalesceSimple_not]
    intro h'
    unfold MergeableSimple at h'
    split at h'
    · exact h trivial
    · exact h'
  · exact absurd trivial h
  · exact absurd trivial h
  · rfl

theorem coalesceWord_err {a b l r : WordKind C} (h : coalesceWord a b = .error (l, r)) :
    l = a ∧ r = b ∧ ¬ Mergeable a b := by
  have hn : ¬ Mergeable a b := by
    intro hm
    unfold Mergeable at hm
    split at hm
    · simp [coalesceWord, coalesceSimple] at h
    · simp [coalesceWord] at h
    · simp [coalesceWord] at h
    · exact hm
  rw [coalesceWord_not hn] at h
  cases h
  exact ⟨rfl, rfl, hn⟩

theorem collectWord_joined (v : List (WordKind C)) :
    Joined JoinWord v (Coalesce.collect coalesceWord v) := by
  rw [Coalesce.collect_eq]
  refine merge_joined ?_ (fun a b l r h => ⟨(coalesceWord_err h).1, (coalesceWord_err h).2.1⟩) v
  intro a b c h
  rcases coalesceWord_ok h with ⟨s, t, rfl, rfl, rfl⟩ | ⟨s, t, rfl, rfl, rfl⟩ | ⟨s, t, rfl, rfl, rfl⟩
  · exact .literal s t
  · exact .singleQuoted s t
  · exact .doubleQuoted (collectSimple_joined _)

theorem collectWord_chain (v : List (WordKind C)) :
    List.IsChain (fun a b => ¬ Mergeable a b) (Coalesce.collect coalesceWord v) := by
  rw [Coalesce.collect_eq]
  refine merge_chain ?_ (fun a b l r h => coalesceWord_err h) v
  intro a b c h z
  rcases coalesceWord_ok h with ⟨s, t, rfl, rfl, rfl⟩ | ⟨s, t, rfl, rfl, rfl⟩ | ⟨s, t, rfl, rfl, rfl⟩
  · unfold Mergeable; rcases z with z | z | z <;> first | rfl | (cases z <;> rfl)
  · unfold Mergeable; rcases z with z | z | z <;> first | rfl | (cases z <;> rfl)
  · unfold Mergeable; rcases z with z | z | z <;> first | rfl | (cases z <;> rfl)

/-- C32: compression only joins neighbours: literal with literal, single-quoted with single-quoted,
double-quoted with double-quoted (and, inside double quotes, literal with literal). -/
theorem C32_only_joins_neighbours (k : ComplexWordKind C) :
    Joined JoinWord (parts k) (parts (compress k)) ∨
    ∃ v v', k = .Single (.DoubleQuoted v) ∧ compress k = .Single (.DoubleQuoted v') ∧
      Joined JoinSimple v v' := by
  unfold compress
  split
  · rename_i v
    exact .inr ⟨v, _, rfl, rfl, collectSimple_joined v⟩
  · exact .inl (.refl _)
  · rename_i v
    left
    have := collectWord_joined v
    split
    · rename_i w h; rw [h] at this; exact this
    · exact this

/-- C32: no neighbours that could be joined remain. -/
theorem C32_nothing_left_to_join (k : ComplexWordKind C) :
    List.IsChain (fun a b => ¬ Mergeable a b) (parts (compress k)) := by
  unfold compress
  split
  · exact List.isChain_singleton _
  · exact List.isChain_singleton _
  · rename_i v
    have := collectWord_chain v
    split
    · exact List.isChain_singleton _
    · exact this

theorem joined_atoms {β : Type} {α : Type} {J : α → α → α → Prop} {g : α → List β}
    (hJ : ∀ a b c, J a b c → g c = g a ++ g b) {l m : List α} (h : Joined J l m) :
    m.flatMap g = l.flatMap g := by
  induction h with
  | refl => rfl
  | step hj _ ih => rw [ih]; simp [hJ _ _ _ hj]

theorem joinSimple_atoms {l m : List (SimpleWordKind C)} (h : Joined JoinSimple l m) :
    m.flatMap atomsSimple = l.flatMap atomsSimple := by
  refine joined_atoms ?_ h
  rintro _ _ _ ⟨a, b⟩
  simp [atomsSimple]

/-- C32: the sequence of fragments, their text and their quoting are kept. -/
theorem C32_text_is_kept (k : ComplexWordKind C) : atoms (compress k) = atoms k := by
  rcases C32_only_joins_neighbours k with h | ⟨v, v', h1, h2, h⟩
  · refine joined_atoms ?_ h
    intro a b c hj
    cases hj with
    | literal a b => simp [atomsWord, atomsSimple]
    | singleQuoted a b => simp [atomsWord]
    | doubleQuoted hj =>
      simp only [atomsWord, joinSimple_atoms hj]
      simp
  · rw [h1] at h2 ⊢
    rw [h2]
    simp [atoms, parts, atomsWord, joinSimple_atoms h]

/-- C32: applying it twice changes nothing more, for every word a builder is given (`WordOk`, see
C21: a concatenation has at least two parts). -/
theorem C32_idempotent (k : ComplexWordKind C) (h : WordOk k) : compress (compress k) = compress k := by
  match k, h with
  | .Single (.Simple s), _ => rfl
  | .Single (.SingleQuoted s), _ => rfl
  | .Single (.DoubleQuoted v), _ =>
    simp only [compress, collectSimple_fixed (collectSimple_chain v)]
  | .Concat v, hv =>
    have hj := collectWord_joined v
    have hc := collectWord_chain v
    have hd : ∀ w, Coalesce.collect coalesceWord v = [.DoubleQuoted w] →
        List.IsChain (fun a b => ¬ MergeableSimple a b) w := by
      intro w hw
      rw [Coalesce.collect_eq] at hw
      match v, hv with
      | x :: y :: ys, _ =>
        have key : ∀ (ys : List (WordKind C)) (x : WordKind C),
            (∀ u, x = .DoubleQuoted u → List.IsChain (fun a b => ¬ MergeableSimple a b) u) →
            mergeFrom coalesceWord x ys = [.DoubleQuoted w] →
            List.IsChain (fun a b => ¬ MergeableSimple a b) w := by
          intro ys
          induction ys with
          | nil =>
            intro x hx h
            simp only [mergeFrom, List.cons.injEq, and_true] at h
            exact hx w h
          | cons y ys ih =>
            intro x hx h
            unfold mergeFrom at h
            cases hf : coalesceWord x y with
            | ok c =>
              rw [hf] at h
              refine ih c ?_ h
              rintro u rfl
              rcases coalesceWord_ok hf with ⟨s, t, -, -, h⟩ | ⟨s, t, -, -, h⟩ | ⟨s, t, -, -, h⟩
              · cases h
              · cases h
              · cases h; exact collectSimple_chain _
            | error p =>
              obtain ⟨l, r⟩ := p
              rw [hf] at h
              simp only [List.cons.injEq] at h
              obtain ⟨z, zs, hz, -⟩ := (mergeFrom_chain (M := Mergeable) (fun a b c h z => by
                rcases coalesceWord_ok h with ⟨s, t, rfl, rfl, rfl⟩ | ⟨s, t, rfl, rfl, rfl⟩ |
                  ⟨s, t, rfl, rfl, rfl⟩ <;>
                (unfold Mergeable; rcases z with z | z | z <;> first | rfl | (cases z <;> rfl)))
                (fun a b l r h => coalesceWord_err h) ys r).2
              rw [hz] at h
              simp at h
        rw [merge, mergeFrom] at hw
        cases hf : coalesceWord x y with
        | ok c =>
          rw [hf] at hw
          refine key ys c ?_ hw
          rintro u rfl
          rcases coalesceWord_ok hf with ⟨s, t, -, -, h⟩ | ⟨s, t, -, -, h⟩ | ⟨s, t, -, -, h⟩
          · cases h
          · cases h
          · cases h; exact collectSimple_chain _
        | error p =>
          obtain ⟨l, r⟩ := p
          rw [hf] at hw
          simp only [List.cons.injEq] at hw
          obtain ⟨z, zs, hz, -⟩ := (mergeFrom_chain (M := Mergeable) (fun a b c h z => by
            rcases coalesceWord_ok h with ⟨s, t, rfl, rfl, rfl⟩ | ⟨s, t, rfl, rfl, rfl⟩ |
              ⟨s, t, rfl, rfl, rfl⟩ <;>
            (unfold Mergeable; rcases z with z | z | z <;> first | rfl | (cases z <;> rfl)))
            (fun a b l r h => coalesceWord_err h) ys r).2
          rw [hz] at hw
          simp at hw
    have hfix : Coalesce.collect coalesceWord (Coalesce.collect coalesceWord v) =
        Coalesce.collect coalesceWord v := by
      rw [Coalesce.collect_eq coalesceWord (Coalesce.collect coalesceWord v)]
      exact merge_fixed (fun a b h => coalesceWord_not h) _ hc
    rw [compress]
    generalize hz : Coalesce.collect coalesceWord v = z at hd hfix
    match z with
    | [] => rfl
    | [.Simple s] => rfl
    | [.SingleQuoted s] => rfl
    | [.DoubleQuoted w] =>
      simp only [compress, collectSimple_fixed (hd w rfl)]
    | x :: y :: ys =>
      simp only [compress, hfix]

/-- C32: without the promise of `WordOk` it is not: a concatenation of a single double-quoted part
is first unwrapped and only the second time merged inside. -/
theorem C32_single_concat_not_idempotent :
    compress (compress (.Concat [.DoubleQuoted [.Literal ['a'], .Literal ['b']]] :
      ComplexWordKind Unit)) ≠
    compress (.Concat [.DoubleQuoted [.Literal ['a'], .Literal ['b']]]) := by
  simp [compress, Coalesce.collect, Coalesce.collectN, Coalesce.next, Coalesce.new, Coalesce.loop,
    coalesceSimple]

/-- C32: a word with mergeable parts of each kind. -/
example : parts (compress (.Concat [.Simple (.Literal ['a']), .Simple (.Literal ['b']),
    .DoubleQuoted [.Literal ['c']], .DoubleQuoted [.Literal ['d'], .Star], .SingleQuoted [],
    .SingleQuoted ['e']] : ComplexWordKind Unit)) =
    [.Simple (.Literal ['a', 'b']), .DoubleQuoted [.Literal ['c', 'd'], .Star],
      .SingleQuoted ['e']] := by
  simp [parts, compress, Coalesce.collect, Coalesce.collectN, Coalesce.next, Coalesce.new,
    Coalesce.loop, coalesceSimple, coalesceWord]

end
end Conch
