import Verif.TextKind
import Verif.NormalTree
/-!
# What is read holds only text of the tokens (C54): induction on grammar derivations
-/
namespace Conch
open Spec Gram

/-- The relations between texts that are used: being a sublist, and being a sublist of a
permutation. -/
structure TextOrd where
  R : Str → Str → Prop
  trans : ∀ {a b c}, R a b → R b c → R a c
  sub : ∀ {a b}, List.Sublist a b → R a b
  app : ∀ {a b c d}, R a b → R c d → R (a ++ c) (b ++ d)

variable {O : TextOrd}

theorem TextOrd.refl (O : TextOrd) (s : Str) : O.R s s := O.sub (List.Sublist.refl s)

/-- Here-documents, which move text, are covered by the relation, or there are none. -/
def Free (O : TextOrd) (l : List Token) : Prop :=
  (¬ ∀ a b, O.R (a ++ b) (b ++ a)) → ∀ t ∈ l, t ≠ .DLess ∧ t ≠ .DLessDash

/-- `Cov O l s r`: the text `s` and that of the tokens `r` is text of the tokens `l`. -/
def Cov (O : TextOrd) (l : List Token) (s : Str) (r : List Token) : Prop :=
  O.R (s ++ concatTokens r) (concatTokens l)

theorem concat_cons (t : Token) (l) : concatTokens (t :: l) = t.asStr ++ concatTokens l := by
  simp [concatTokens]

theorem concat_app (u l : List Token) : concatTokens (u ++ l) = concatTokens u ++ concatTokens l := by
  simp [concatTokens]

namespace Cov
variable {l r m u : List Token} {s s' : Str} {t : Token}

theorem refl (l) : Cov O l [] l := O.refl _

theorem trans (h : Cov O l s m) (h' : Cov O m s' r) : Cov O l (s ++ s') r := by
  unfold Cov at *
  rw [List.append_assoc]
  exact O.trans (O.app (O.refl s) h') h

theorem drop (h : Cov O l s r) : Cov O (t :: l) s r := by
  unfold Cov at *
  rw [concat_cons]
  exact O.trans h (O.sub (List.sublist_append_right _ _))

theorem drops (h : Cov O l s r) : Cov O (u ++ l) s r := by
  unfold Cov at *
  rw [concat_app]
  exact O.trans h (O.sub (List.sublist_append_right _ _))

theorem keep (h : Cov O l s r) : Cov O (t :: l) (t.asStr ++ s) r := by
  unfold Cov at *
  rw [concat_cons, List.append_assoc]
  exact O.app (O.refl _) h

theorem keeps (h : Cov O l s r) : Cov O (u ++ l) (concatTokens u ++ s) r := by
  unfold Cov at *
  rw [concat_app, List.append_assoc]
  exact O.app (O.refl _) h

theorem forget (h : Cov O l (s ++ s') r) : Cov O l s' r := by
  unfold Cov at *
  rw [List.append_assoc] at h
  exact O.trans (O.sub (List.sublist_append_right _ _)) h

theorem of_eq (h : Cov O l s r) (e : s' = s) : Cov O l s' r := e ▸ h

theorem skip (h : Skip l r) : Cov O l [] r := by
  obtain ⟨bs, rfl, -⟩ := h; exact (refl r).drops

theorem line {n} (h : Line l n r) : Cov O l [] r := by
  cases h with
  | newline _ => exact (refl r).drop.drops
  | comment _ _ => rw [List.append_assoc]; exact ((refl r).drop.drops (u := _ :: _)).drops
  | lastComment _ _ => exact O.sub (List.nil_sublist _)

theorem optLine {n} (h : OptLine l n r) : Cov O l [] r := by
  cases h with
  | some h => exact line h
  | none h _ => exact skip h

theorem lines {n} (h : Lines l n r) : Cov O l [] r := by
  induction h with
  | nil h _ => exact skip h
  | cons h _ ih => exact (line h).trans ih

theorem keyword {w} (h : Keyword w l r) : Cov O l [] r := by
  obtain ⟨t, rfl⟩ := h.cons; exact (refl r).drop

theorem kw {w} (h : Kw w l r) : Cov O l [] r := by
  obtain ⟨l', h, hk⟩ := h; exact (skip h).trans (keyword hk)

theorem parens (h : Parens l r) : Cov O l [] r := by
  obtain ⟨l', rfl, h⟩ := h; exact ((skip h).trans (refl r).drop).drop

theorem sepAfter {k c} (h : SepAfter l k c r) : Cov O l [] r := by
  cases h with
  | semi h => exact (optLine h).drop
  | amp h => exact (optLine h).drop
  | newline h _ => exact line h
  | other h _ _ => exact skip h

end Cov

/-! ## Arithmetic -/

/-- The text of tokens with positions. -/
abbrev pText (u : List PTok) : Str := concatTokens (u.map (·.2))

theorem pText_app (u v : List PTok) : pText (u ++ v) = pText u ++ pText v := by
  simp [pText, concat_app]

theorem pText_cons (x : PTok) (v : List PTok) : pText (x :: v) = x.2.asStr ++ pText v := by
  simp [pText, concat_cons]

theorem varRef_text {vs : List PTok} {x : Str} (h : VarRef vs x) : List.Sublist x (pText vs) := by
  cases h with
  | name => simp [pText, concatTokens, Token.asStr]
  | dollar => simp [pText, concatTokens, Token.asStr]

theorem bin_text {lvl : Level} {op mk} (h : (op, mk) ∈ binOps lvl) (a b) :
    Txt.arithText (mk a b) = Txt.arithText a ++ Txt.arithText b := by
  cases lvl <;> simp [binOps] at h <;>
    first
    | (rcases h with ⟨-, rfl⟩ | ⟨-, rfl⟩ | ⟨-, rfl⟩ | ⟨-, rfl⟩ <;> rfl; done)
    | (rcases h with ⟨-, rfl⟩ | ⟨-, rfl⟩ | ⟨-, rfl⟩ <;> rfl; done)
    | (rcases h with ⟨-, rfl⟩ | ⟨-, rfl⟩ <;> rfl; done)
    | (obtain ⟨-, rfl⟩ := h; rfl)

theorem compound_text {op mk} (h : (op, mk) ∈ compoundOps) (a b) :
    Txt.arithText (mk a b) = Txt.arithText a ++ Txt.arithText b := by
  simp [compoundOps] at h
  rcases h with ⟨-, rfl⟩ | ⟨-, rfl⟩ | ⟨-, rfl⟩ | ⟨-, rfl⟩ | ⟨-, rfl⟩ | ⟨-, rfl⟩ | ⟨-, rfl⟩ |
    ⟨-, rfl⟩ | ⟨-, rfl⟩ | ⟨-, rfl⟩ <;> rfl

theorem sub_mid {a b c d : Str} (h : List.Sublist a c) (h' : List.Sublist b d) (m : Str) :
    List.Sublist (a ++ b) (c ++ m ++ d) :=
  (h.trans (List.sublist_append_left c m)).append h'

theorem expr_text {sep : Signs} :
    ∀ {lvl u a}, Expr sep lvl u a → List.Sublist (Txt.arithText a) (pText u) := by
  have right : ∀ {a b : Str} (c), List.Sublist a b → List.Sublist a (c ++ b) :=
    fun c h => h.trans (List.sublist_append_right c _)
  have left : ∀ {a b : Str} (c), List.Sublist a b → List.Sublist a (b ++ c) :=
    fun c h => h.trans (List.sublist_append_left _ c)
  intro lvl u a h
  refine Expr.rec (motive_1 := fun _ u a _ => List.Sublist (Txt.arithText a) (pText u))
    (motive_2 := fun u as _ => List.Sublist (Txt.arithsText as) (pText u))
    ?_ ?_ ?_ ?_ ?_ ?_ ?_ ?_ ?_ ?_ ?_ ?_ ?_ ?_ ?_ ?_ ?_ ?_ ?_ ?_ ?_ ?_ h
  · intro _ _ _ _ _ ih; exact ih
  · intro _ _ _ _ ih; simpa [Txt.arithText] using ih
  · intro _ _ _ _ _ _ _ _ _ _ _ ih
    simp only [Txt.arithText, pText_app, pText_cons]
    exact right _ (right _ ih)
  · intro _ _ _ _ _ _ _ _ _ _ _ hv _ hm _ ih
    simp only [Txt.arithText, compound_text hm, pText_app, pText_cons]
    refine List.Sublist.append (left _ (right _ (varRef_text hv))) (right _ (right _ ih))
  · intro _ _ _ _ _ _ _ _ _ _ _ _ _ _ _ ih1 ih2 ih3
    simp only [Txt.arithText, pText_app, pText_cons, List.append_assoc]
    exact ih1.append (right _ (right _ (ih2.append (right _ (right _ ih3)))))
  · intro _ _ _ _ _ _ _ _ hm _ _ _ _ ih1 ih2
    simp only [bin_text hm, pText_app, List.append_assoc]
    exact ih1.append (right _ (right _ ih2))
  · intro _ _ _ _ _ _ _ _ _ _ ih1 ih2
    simp only [Txt.arithText, pText_app, pText_cons, List.append_assoc]
    exact ih1.append (right _ (right _ (right _ ih2)))
  · intro _ _ _ _ _ _ ih
    simp only [Txt.arithText, pText_app, pText_cons]; exact right _ (right _ ih)
  · intro _ _ _ _ _ _ ih
    simp only [Txt.arithText, pText_app, pText_cons]; exact right _ (right _ ih)
  · intro _ _ _ _ _ _ _ ih
    simp only [Txt.arithText, pText_app, pText_cons]; exact right _ (right _ ih)
  · intro _ _ _ _ _ _ _ ih
    simp only [Txt.arithText, pText_app, pText_cons]; exact right _ (right _ ih)
  · intro _ _ _ _ _ _ _ ih
    simp only [Txt.arithText, pText_app, pText_cons]; exact right _ (right _ (right _ ih))
  · intro _ _ _ _ _ _ _ ih
    simp only [Txt.arithText, pText_app, pText_cons]; exact right _ (right _ (right _ ih))
  · intro _ _ _ _ _ _ _ _ hv
    simp only [Txt.arithText, pText_app, pText_cons]; exact right _ (varRef_text hv)
  · intro _ _ _ _ _ _ _ _ hv
    simp only [Txt.arithText, pText_app, pText_cons]; exact right _ (varRef_text hv)
  · intro _ _ _ _ _ _ _ hv _
    simp only [Txt.arithText, pText_app, pText_cons]; exact left _ (left _ (right _ (varRef_text hv)))
  · intro _ _ _ _ _ _ _ hv _
    simp only [Txt.arithText, pText_app, pText_cons]; exact left _ (left _ (right _ (varRef_text hv)))
  · intro _ _ _ _ hv
    simp only [Txt.arithText, pText_app, pText_cons]; exact right _ (varRef_text hv)
  · intro _ _ _ _ _ _ _; simp [Txt.arithText]
  · intro _ _ _ _ _ _ _ _ _ ih
    simp only [pText_app, pText_cons]; exact left _ (left _ (right _ (right _ ih)))
  · intro _ _ _ ih; simpa [Txt.arithsText] using ih
  · intro _ _ _ _ _ _ _ _ _ ih1 ih2
    simp only [Txt.arithsText, pText_app, pText_cons, List.append_assoc]
    exact ih1.append (right _ (right _ ih2))

theorem expr_anywhere {sep : Signs} {lvl u a} (h : Expr sep lvl (anywhere u) a) :
    List.Sublist (Txt.arithText a) (concatTokens u) := by
  have := expr_text h
  simpa [pText, anywhere, Function.comp_def] using this

/-! ## Here-documents and backticks -/

theorem concat_sub {u v : List Token} (h : List.Sublist u v) :
    List.Sublist (concatTokens u) (concatTokens v) := by
  induction h with
  | slnil => exact .refl _
  | cons t _ ih => rw [concat_cons]; exact ih.trans (List.sublist_append_right _ _)
  | cons_cons t _ ih => rw [concat_cons, concat_cons]; exact List.Sublist.append (.refl _) ih

theorem unescape_sub (u : List Token) : List.Sublist (Gram.unescape u) u := by
  have key : ∀ (l : List PTok), List.Sublist (Spec.unescape l) l := by
    intro l
    induction l using Spec.unescape.induct with
    | case1 => simp [Spec.unescape]
    | case2 => simp [Spec.unescape]
    | case3 x y r h1 h2 ih => 
      simp only [Spec.unescape, h1, if_true, h2]
      exact (ih.cons_cons y).trans (List.sublist_cons_self x _)
    | case4 x y r h1 h2 ih => simpa [Spec.unescape, h1, h2] using ih
    | case5 x y r h1 ih => simpa [Spec.unescape, h1] using ih
  have := (key (anywhere u)).map (·.2)
  simpa [Gram.unescape, anywhere, Function.comp_def] using this

theorem untab_text (w : Str) : List.Sublist (concatTokens (untab w)) w := by
  unfold untab
  dsimp only
  split
  · simp [concatTokens]
  · simpa [concatTokens, Token.asStr] using List.dropWhile_sublist _

theorem stripLine_text (c : List Token) : List.Sublist (concatTokens (stripLine c)) (concatTokens c) := by
  induction c using stripLine.induct with
  | case1 => simp [stripLine]
  | case2 w => simpa [stripLine, concatTokens, Token.asStr] using untab_text w
  | case3 w t r ih =>
    simp only [stripLine, concat_app, concat_cons]
    exact (untab_text w).append ((List.Sublist.refl _).append ih)
  | case4 t r h1 h2 ih =>
    rw [stripLine.eq_4 _ _ (by assumption) (by assumption), concat_cons, concat_cons]
    exact (List.Sublist.refl _).append ih

theorem lineOf_text (s) (c : List Token) : List.Sublist (concatTokens (lineOf s c)) (concatTokens c) := by
  unfold lineOf; split
  · exact stripLine_text c
  · exact .refl _

theorem hereLines_text {s d} {l body r : List Token} (h : HereLines s d l body r) :
    List.Sublist (concatTokens body ++ concatTokens r) (concatTokens l) := by
  induction h with
  | delim _ _ =>
    simp only [concat_app, concat_cons]
    exact ((List.sublist_append_right _ _).trans (List.sublist_append_right _ _))
  | line _ _ _ ih =>
    simp only [concat_app, concat_cons, List.append_assoc]
    exact (lineOf_text s _).append ((List.Sublist.refl _).append ih)
  | lastDelim => simp [concatTokens]
  | lastLine _ _ => simpa [concatTokens] using lineOf_text s _

/-! ## Parameters -/

theorem paramName_text {t : Token} {q : DefaultParameter} (h : ParamName t q) :
    Txt.paramText q = t.asStr := by
  cases h with
  | special h =>
    simp only [specialParams, List.mem_cons, Prod.mk.injEq, List.not_mem_nil, or_false] at h
    rcases h with ⟨rfl, rfl⟩ | ⟨rfl, rfl⟩ | ⟨rfl, rfl⟩ | ⟨rfl, rfl⟩ | ⟨rfl, rfl⟩ | ⟨rfl, rfl⟩ | ⟨rfl, rfl⟩ <;> rfl
  | var => rfl

theorem paramIn_text {t : Token} {q : DefaultParameter} (h : ParamIn t q) :
    List.Sublist (Txt.paramText q) t.asStr := by
  cases h with
  | name h => rw [paramName_text h]
  | number => exact List.nil_sublist _

end Conch
