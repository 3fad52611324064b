import Verif.ArithGrammar
import Verif.ParserArith
/-!
# C23: the value of literals
-/
namespace Conch
open Spec

theorem toDigit_iff (base : Nat) (c : Char) (d : Nat) :
    toDigit base c = some d ↔ (c, d) ∈ digitTable ∧ d < base := by
  have key : (if '0' ≤ c && c ≤ '9' then some (c.toNat - '0'.toNat)
    else if 'a' ≤ c && c ≤ 'f' then some (c.toNat - 'a'.toNat + 10)
    else if 'A' ≤ c && c ≤ 'F' then some (c.toNat - 'A'.toNat + 10)
    else none) = digitTable.lookup c := by
    by_cases hc : c.toNat < 128
    · have : ∀ n < 128, (if '0' ≤ Char.ofNat n && Char.ofNat n ≤ '9' then
            some ((Char.ofNat n).toNat - '0'.toNat)
          else if 'a' ≤ Char.ofNat n && Char.ofNat n ≤ 'f' then
            some ((Char.ofNat n).toNat - 'a'.toNat + 10)
          else if 'A' ≤ Char.ofNat n && Char.ofNat n ≤ 'F' then
            some ((Char.ofNat n).toNat - 'A'.toNat + 10)
          else none) = digitTable.lookup (Char.ofNat n) := by decide +kernel
      have := this _ hc
      rwa [Char.ofNat_toNat] at this
    · have hle : ∀ d : Char, d.toNat < 128 → ¬ c ≤ d := by
        intro d hd h
        have : c.toNat ≤ d.toNat := h
        omega
      have hne : ∀ d : Char, d.toNat < 128 → (c == d) = false := by
        intro d hd
        rw [beq_eq_false_iff_ne]
        rintro rfl
        exact hc hd
      rw [if_neg (by simp [hle '9' (by decide)]), if_neg (by simp [hle 'f' (by decide)]),
        if_neg (by simp [hle 'F' (by decide)])]
      symm
      rw [List.lookup_eq_none_iff]
      intro p hp
      rw [bne, hne p.1 ((by decide +kernel : ∀ p ∈ digitTable, p.1.toNat < 128) p hp)]; rfl
  have hl : ∀ n, digitTable.lookup c = some n ↔ (c, n) ∈ digitTable := by
    intro n
    constructor
    · intro h
      obtain ⟨l1, l2, h1, -⟩ := List.lookup_eq_some_iff.1 h
      rw [h1]; simp
    · intro h
      have : ∀ p ∈ digitTable, digitTable.lookup p.1 = some p.2 := by decide +kernel
      exact this _ h
  unfold toDigit
  simp only [key]
  rw [← hl]
  cases h : digitTable.lookup c with
  | none => simp
  | some n =>
    by_cases hn : n < base
    · simp [hn]; rintro rfl; exact hn
    · simp [hn]; rintro rfl; omega

theorem digitsValue_iff (base : Nat) (s : Str) : ∀ (acc n : Nat), digitsValue base acc s = some n ↔
    ∃ ds, Digits base s ds ∧ n = ds.foldl (fun n d => n * base + d) acc := by
  induction s with
  | nil =>
    intro acc n
    simp only [digitsValue, Option.some.injEq]
    constructor
    · rintro rfl; exact ⟨[], by simp [Digits], rfl⟩
    · rintro ⟨ds, ⟨h1, -⟩, rfl⟩
      cases ds with
      | nil => rfl
      | cons _ _ => simp at h1
  | cons c s ih =>
    intro acc n
    rw [digitsValue]
    constructor
    · cases hd : toDigit base c with
      | none => simp
      | some d =>
        intro h
        obtain ⟨ds, h1, h2⟩ := (ih _ _).1 h
        refine ⟨d :: ds, ⟨by simpa using h1.1, ?_⟩, h2⟩
        intro p hp
        rcases List.mem_cons.1 hp with rfl | hp
        · exact (toDigit_iff _ _ _).1 hd
        · exact h1.2 p hp
    · rintro ⟨ds, ⟨h1, h2⟩, rfl⟩
      cases ds with
      | nil => simp at h1
      | cons d ds =>
        rw [(toDigit_iff base c d).2 (h2 (c, d) (by simp))]
        exact (ih _ _).2 ⟨ds, ⟨by simpa using h1, fun p hp => h2 p (by simp [hp])⟩, rfl⟩

theorem magnitude_iff (base : Nat) (s : Str) (n : Nat) : magnitude base s = some n ↔
    s ≠ [] ∧ ∃ ds, Digits base s ds ∧ n = number base ds := by
  unfold magnitude
  cases s with
  | nil => simp
  | cons c s => simpa [number] using digitsValue_iff base (c :: s) 0 n

theorem digits_head_ne {base : Nat} {c : Char} {s : Str} {ds : List Nat} (h : Digits base (c :: s) ds) :
    c ≠ '+' ∧ c ≠ '-' := by
  obtain ⟨h1, h2⟩ := h
  cases ds with
  | nil => simp at h1
  | cons d ds =>
    have := (h2 (c, d) (by simp)).1
    exact (by decide : ∀ p ∈ digitTable, p.1 ≠ '+' ∧ p.1 ≠ '-') _ this

theorem parseUnsigned_iff (base max : Nat) (s : Str) (n : Nat) : parseUnsigned base max s = some n ↔
    n ≤ max ∧ ∃ ds r, (s = r ∨ s = '+' :: r) ∧ r ≠ [] ∧ Digits base r ds ∧ n = number base ds := by
  have hm : ∀ r : Str, (match magnitude base r with
      | some n => if n ≤ max then some n else none
      | none => none) = some n ↔ n ≤ max ∧ ∃ ds, r ≠ [] ∧ Digits base r ds ∧ n = number base ds := by
    intro r
    cases h : magnitude base r with
    | none =>
      simp only [reduceCtorEq, false_iff]
      rintro ⟨-, ds, h1, h2, h3⟩
      rw [(magnitude_iff _ _ _).2 ⟨h1, ds, h2, h3⟩] at h
      cases h
    | some m =>
      constructor
      · intro h'
        dsimp only at h'
        split at h'
        · cases h'
          obtain ⟨h1, ds, h2⟩ := (magnitude_iff _ _ _).1 h
          exact ⟨by assumption, ds, h1, h2⟩
        · cases h'
      · rintro ⟨hn, ds, h1, h2⟩
        rw [(magnitude_iff _ _ _).2 ⟨h1, ds, h2⟩] at h
        cases h
        simp [hn]
  unfold parseUnsigned
  split
  · rename_i r
    refine (hm r).trans ⟨?_, ?_⟩
    · rintro ⟨h, ds, h1⟩; exact ⟨h, ds, r, .inr rfl, h1⟩
    · rintro ⟨h, ds, r', rfl | h', h1⟩
      · exact absurd rfl (digits_head_ne h1.2.1).1
      · cases h'; exact ⟨h, ds, h1⟩
  · rename_i hs
    refine (hm s).trans ⟨?_, ?_⟩
    · rintro ⟨h, ds, h1⟩; exact ⟨h, ds, s, .inl rfl, h1⟩
    · rintro ⟨h, ds, r', rfl | h', h1⟩
      · exact ⟨h, ds, h1⟩
      · exact absurd h' (hs _)

theorem parseSigned_iff (base : Nat) (s : Str) (n : Int) :
    parseSigned base s = some n ↔ Signed base s n ∧ InRange n := by
  unfold parseSigned
  split
  · rename_i r
    constructor
    · intro h
      cases hm : magnitude base r with
      | none => simp [hm] at h
      | some m =>
        rw [hm] at h
        dsimp only at h
        split at h
        · cases h
          obtain ⟨h1, ds, h2, rfl⟩ := (magnitude_iff _ _ _).1 hm
          refine ⟨.minus h1 h2, ?_⟩
          constructor <;> omega
        · cases h
    · rintro ⟨h, hr⟩
      cases h with
      | plain h1 h2 => exact absurd rfl (digits_head_ne h2).2
      | @minus _ ds h1 h2 =>
        rw [(magnitude_iff _ _ _).2 ⟨h1, ds, h2, rfl⟩]
        have := hr.1
        have : number base ds ≤ 2 ^ 63 := by omega
        simp [this]
  · rename_i hs
    constructor
    · intro h
      cases hm : parseUnsigned base (2 ^ 63 - 1) s with
      | none => simp [hm] at h
      | some m =>
        rw [hm] at h
        cases h
        obtain ⟨hm, ds, r, rfl | rfl, h1, h2, rfl⟩ := (parseUnsigned_iff _ _ _ _).1 hm
        · exact ⟨.plain h1 h2, by constructor <;> omega⟩
        · exact ⟨.plus h1 h2, by constructor <;> omega⟩
    · rintro ⟨h, hr⟩
      have hr := hr.2
      cases h with
      | minus => exact absurd rfl (hs _)
      | @plain _ ds h1 h2 =>
        rw [(parseUnsigned_iff _ _ _ _).2 ⟨by omega, ds, _, .inl rfl, h1, h2, rfl⟩]
      | @plus _ ds h1 h2 =>
        rw [(parseUnsigned_iff _ _ _ _).2 ⟨by omega, ds, _, .inr rfl, h1, h2, rfl⟩]

theorem signed_ne_nil {base : Nat} {s : Str} {n : Int} (h : Signed base s n) : s ≠ [] := by
  cases h <;> simp_all

/-- The value of a literal token is the number it denotes, if that fits `isize`. -/
theorem literalValue_iff (s : Str) (n : Int) :
    literalValue s = some n ↔ Numeral s n ∧ InRange n := by
  have hz : InRange 0 := by constructor <;> omega
  have hex : ∀ x r, x = 'x' ∨ x = 'X' → ((if r.isEmpty then some 0 else parseSigned 16 r) = some n ↔
      Numeral ('0' :: x :: r) n ∧ InRange n) := by
    intro x r hx
    cases r with
    | nil =>
      simp only [List.isEmpty_nil, if_true, Option.some.injEq]
      constructor
      · rintro rfl; exact ⟨.zero hx, hz⟩
      · rintro ⟨h, -⟩
        cases h with
        | zero => rfl
        | hex _ h => exact absurd rfl (signed_ne_nil h)
        | oct h => have := h _ _ rfl; rcases hx with rfl | rfl <;> simp at this
        | dec h => simp at h
    | cons c r =>
      simp only [List.isEmpty_cons, Bool.false_eq_true, if_false, parseSigned_iff]
      constructor
      · rintro ⟨h1, h2⟩; exact ⟨.hex hx h1, h2⟩
      · rintro ⟨h, h2⟩
        cases h with
        | hex _ h => exact ⟨h, h2⟩
        | oct h => have := h _ _ rfl; rcases hx with rfl | rfl <;> simp at this
        | dec h => simp at h
  unfold literalValue
  split
  · exact hex _ _ (.inl rfl)
  · exact hex _ _ (.inr rfl)
  · rename_i r h1 h2
    rw [parseSigned_iff]
    constructor
    · rintro ⟨h, hr⟩
      refine ⟨.oct ?_ rfl h, hr⟩
      rintro x r' heq
      cases heq
      exact ⟨by rintro rfl; exact h1 _ rfl, by rintro rfl; exact h2 _ rfl⟩
    · rintro ⟨h, hr⟩
      cases h with
      | zero h => exact (h.elim (fun h => h1 _ (by rw [h])) (fun h => h2 _ (by rw [h]))).elim
      | hex h => exact (h.elim (fun h => h1 _ (by rw [h])) (fun h => h2 _ (by rw [h]))).elim
      | oct _ _ h => exact ⟨h, hr⟩
      | dec h => simp at h
  · rename_i h0
    rw [parseSigned_iff]
    constructor
    · rintro ⟨h, hr⟩
      refine ⟨.dec ?_ h, hr⟩
      cases s with
      | nil => simp
      | cons c s => simp; rintro rfl; exact h0 _ rfl
    · rintro ⟨h, hr⟩
      cases h with
      | zero => exact absurd rfl (h0 _)
      | hex => exact absurd rfl (h0 _)
      | oct _ h =>
        cases s with
        | nil => simp at h
        | cons c s => simp at h; subst h; exact absurd rfl (h0 _)
      | dec _ h => exact ⟨h, hr⟩

end Conch
