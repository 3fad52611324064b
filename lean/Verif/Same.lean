import Verif.BalancedSpec
/-!
# Lists of tokens that differ only in their positions
-/
namespace Conch
open Spec

/-- The same tokens. -/
def Same (u v : List PTok) : Prop := u.map (·.2) = v.map (·.2)

theorem Same.append {u x y : List PTok} (h : Same u (x ++ y)) :
    ∃ x' y', u = x' ++ y' ∧ Same x' x ∧ Same y' y := by
  unfold Same at h
  rw [List.map_append] at h
  obtain ⟨x', y', h1, h2, h3⟩ := List.map_eq_append_iff.1 h
  exact ⟨x', y', h1, h2, h3⟩

theorem Same.cons {u y : List PTok} {p : SourcePos} {t : Token} (h : Same u ((p, t) :: y)) :
    ∃ p' y', u = (p', t) :: y' ∧ Same y' y := by
  unfold Same at h
  rw [List.map_cons] at h
  obtain ⟨x', y', h1, h2, h3⟩ := List.map_eq_cons_iff.1 h
  obtain ⟨p', t'⟩ := x'
  simp only at h2
  subst h2
  exact ⟨p', y', h1, h3⟩

theorem Same.nil {u : List PTok} (h : Same u []) : u = [] := by
  unfold Same at h
  simpa using h

end Conch
