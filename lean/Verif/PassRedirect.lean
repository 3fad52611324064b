import Verif.PassWord
import Verif.HereScan
/-!
# The pass over all functions: redirections and here-documents
-/
namespace Conch
open Spec

section
variable {B : Builder} {T : Theory B} {α β : Type} {s : PSt AIter B}

/-! ## A variant without the bound on the number of tokens

Only here-documents put tokens back. -/

/-- As `Theory.Tr`, but tokens may be added. -/
def Theory.Tr0 (T : Theory B) (m : P AIter B α) (s : PSt AIter B) (Q : α → PSt AIter B → Prop) :
    Prop :=
  match m s with
  | (.ok a, s') => T.Inv s' ∧ s'.it.endPos = s.it.endPos ∧ Q a s'
  | (.err e, s') => T.Err e s'.b ∧ T.J s'.it
  | (.panic n, s') => T.Pan n s'.b
  | (.fuel, _) => False

theorem Theory.Tr.to0 {m : P AIter B α} {Q : α → PSt AIter B → Prop} (h : T.Tr m s Q) :
    T.Tr0 m s (fun a s' => T.Fr s s' ∧ Q a s') := by
  unfold Theory.Tr at h
  unfold Theory.Tr0
  generalize m s = z at h
  obtain ⟨r, s1⟩ := z
  cases r with
  | ok a => exact ⟨h.1.inv, h.1.endPos, h.1, h.2⟩
  | err e => exact ⟨h.1, h.2.j⟩
  | panic n => exact h
  | fuel => exact h

theorem Theory.Tr0.to {m : P AIter B α} {Q : α → PSt AIter B → Prop} (hd : T.HS)
    (h : T.Tr0 m s (fun a s' => s'.len ≤ s.len ∧ Q a s')) : T.Tr m s Q := by
  unfold Theory.Tr0 at h
  unfold Theory.Tr
  generalize m s = z at h
  obtain ⟨r, s1⟩ := z
  cases r with
  | ok a => exact ⟨⟨h.1.j, h.1.k, h.2.1, h.2.2.1, .inl hd⟩, h.2.2.2⟩
  | err e => exact ⟨h.1, h.2, .inl hd⟩
  | panic n => exact h
  | fuel => exact h

theorem tr0_bind {m : P AIter B α} {f : α → P AIter B β} {Q1 : α → PSt AIter B → Prop}
    {Q : β → PSt AIter B → Prop} (h : T.Tr0 m s Q1)
    (h' : ∀ a s', T.Inv s' → Q1 a s' → T.Tr0 (f a) s' Q) : T.Tr0 (m >>= f) s Q := by
  show T.Tr0 (P.bind m f) s Q
  unfold Theory.Tr0 P.bind at *
  generalize m s = z at h
  obtain ⟨r, s1⟩ := z
  cases r with
  | ok a =>
    have h2 := h' a s1 h.1 h.2.2
    simp only
    generalize f a s1 = z at h2 ⊢
    obtain ⟨r, s2⟩ := z
    cases r with
    | ok b => exact ⟨h2.1, h2.2.1.trans h.2.1, h2.2.2⟩
    | err e => exact h2
    | panic n => exact h2
    | fuel => exact h2
  | err e => exact h
  | panic n => exact h
  | fuel => exact h

theorem Theory.Tr0.mono {m : P AIter B α} {Q1 Q : α → PSt AIter B → Prop} (h : T.Tr0 m s Q1)
    (h' : ∀ a s', Q1 a s' → Q a s') : T.Tr0 m s Q := by
  unfold Theory.Tr0 at *
  generalize m s = z at h
  obtain ⟨r, s1⟩ := z
  cases r with
  | ok a => exact ⟨h.1, h.2.1, h' a s1 h.2.2⟩
  | err e => exact h
  | panic n => exact h
  | fuel => exact h

theorem tr0_of_eq {m : P AIter B α} {Q : α → PSt AIter B → Prop} {a : α} {s' : PSt AIter B}
    (h : m s = (.ok a, s')) (hi : T.Inv s') (he : s'.it.endPos = s.it.endPos) (hq : Q a s') :
    T.Tr0 m s Q := by
  unfold Theory.Tr0; rw [h]; exact ⟨hi, he, hq⟩

/-! ## The delimiter -/

theorem tr_delimTokens (hi : T.Inv s) :
    T.Tr (loop delimTokensBody []) s (fun ts s' => ∃ u, s.it.rest = u ++ s'.it.rest ∧
      Units u s'.it.rest ∧ ts = u.map (·.2)) := by
  refine tr_loop hi (fun ts s' => ∃ u, s.it.rest = u ++ s'.it.rest ∧
      Units u s'.it.rest ∧ ts = u.map (·.2)) ⟨[], rfl, .nil, rfl⟩ ?_
  rintro ts s1 f1 ⟨u, hu1, hu2, rfl⟩
  unfold delimTokensBody
  rw [tr_peek]
  cases hp : s1.it.peek with
  | none => exact tr_pure f1.inv ⟨u, hu1, hu2, rfl⟩
  | some t =>
    simp only
    split
    · exact tr_pure f1.inv ⟨u, hu1, hu2, rfl⟩
    · rename_i hw
      refine tr_bind (tr_takeBalanced f1.inv) ?_
      rintro ts s2 f2 ⟨⟨h1, h2⟩, v, hv1, hv2, rfl⟩
      have h3 := h2 (peek_some_len hp)
      have hne : v ≠ [] := by rintro rfl; simp at h3
      refine tr_pure f2.inv ⟨⟨u ++ v, by rw [hu1, hv1, List.append_assoc], ?_, by simp⟩, by omega⟩
      rw [hv1] at hu2
      refine hu2.append (.one hne ?_ hv2)
      rintro p rfl
      rw [AIter.peek, hv1] at hp
      simp at hp
      subst hp
      simp [Token.isWordDelimiter] at hw

theorem tr_heredocDelim (hi : T.Inv s) :
    T.Tr heredocDelim s (fun _ s' => ∃ u, s.it.rest = u ++ s'.it.rest ∧ Units u s'.it.rest) := by
  unfold heredocDelim
  refine tr_bind (tr_delimTokens hi) ?_
  rintro ts s1 f1 ⟨u, hu1, hu2, rfl⟩
  obtain ⟨y, it, hy⟩ := delim_total (units_means hu2) s1.b (false, [])
  refine tr_bind (Q1 := fun _ s' => s' = s1) (tr_of_eq (a := y) (s' := s1) ?_ f1.inv.refl rfl) ?_
  · unfold withIterRestore
    show (match loop delimBody (false, []) ⟨AIter.ofTokens _, s1.b⟩ with
      | (r, s') => (r, { s' with it := s1.it })) = _
    rw [hy]
  rintro x s2 f2 rfl
  split
  · exact tr_unexpected f2.inv
  · exact tr_pure f2.inv ⟨u, hu1, hu2⟩

/-! ## The body -/

theorem Spec.LogicalLine.prepend {d l r : List PTok} (h : LogicalLine l r) (hd : Units d (l ++ r)) :
    LogicalLine (d ++ l) r := by
  rcases h with ⟨u, q, rfl, h⟩ | ⟨h, rfl⟩
  · exact .inl ⟨d ++ u, q, by simp, .append (by simpa using hd) h⟩
  · exact .inr ⟨.append hd h, rfl⟩

theorem tr_saveLine (hi : T.Inv s) :
    T.Tr (loop saveLineBody []) s (fun ts s' => ∃ u, s.it.rest = u ++ s'.it.rest ∧
      LogicalLine u s'.it.rest ∧ ts = u.map (·.2)) := by
  refine tr_loop hi (fun ts s' => ∃ u, s.it.rest = u ++ s'.it.rest ∧
      Units u s'.it.rest ∧ ts = u.map (·.2)) ⟨[], rfl, .nil, rfl⟩ ?_
  rintro ts s1 f1 ⟨u, hu1, hu2, rfl⟩
  unfold saveLineBody
  rw [tr_peek]
  split
  · rename_i hp
    have := peek_none.1 hp
    rw [this] at hu2
    exact tr_pure f1.inv ⟨u, hu1, .inr ⟨hu2, this⟩, rfl⟩
  · rename_i hp
    refine tr_bind (tr_next' f1.inv) ?_
    rintro a s2 f2 ⟨⟨rfl, h2⟩, h3⟩
    obtain ⟨q, hq⟩ : ∃ q, s1.it.rest = (q, .Newline) :: s2.it.rest := by
      rw [h3]
      cases hl : s1.it.rest with
      | nil => rw [AIter.peek, hl] at hp; simp at hp
      | cons x l =>
        obtain ⟨q, t⟩ := x
        rw [AIter.peek, hl] at hp
        simp at hp
        exact ⟨q, by rw [hp]; rfl⟩
    rw [hp]
    refine tr_pure f2.inv ⟨u ++ [(q, .Newline)], by rw [hu1, hq]; simp, .inl ⟨u, q, rfl, ?_⟩, by simp⟩
    rw [← hq]; exact hu2
  · rename_i t hn hp
    refine tr_bind (tr_takeBalanced f1.inv) ?_
    rintro us s2 f2 ⟨⟨h2, h3⟩, v, hv1, hv2, rfl⟩
    have h4 := h3 (peek_some_len hp)
    have hne : v ≠ [] := by rintro rfl; simp at h4
    refine tr_pure f2.inv ⟨⟨u ++ v, by rw [hu1, hv1, List.append_assoc], ?_, by simp⟩, by omega⟩
    rw [hv1] at hu2
    refine hu2.append (.one hne ?_ hv2)
    rintro p rfl
    rw [AIter.peek, hv1] at hp
    simp at hp
    exact hn hp.symm

/-- Number of tokens in the saved lines. -/
def linesLen (ls : List (List Token × SourcePos)) : Nat := (ls.flatMap (·.1)).length

theorem foldr_buffer_len (cs : List (List Token × SourcePos)) (p : SourcePos) :
    (cs.foldr (fun c it => TokStream.bufferFirst it c.1 c.2)
      (TokStream.withPosition (I := AIter) p)).rest.length = linesLen cs := by
  rw [foldr_buffer]
  show (chunkToks cs).length = _
  unfold linesLen chunkToks
  induction cs with
  | nil => rfl
  | cons c cs ih =>
    simp only [List.flatMap_cons, List.length_append] at ih ⊢
    rw [ih]
    have := congrArg List.length (annotate_toks c.2 c.1)
    simp at this
    omega

theorem heredocWord_ok {C : Type} (ws : List (SimpleWordKind C)) : WordOk (heredocWord ws) := by
  match ws with
  | [] => trivial
  | [w] => trivial
  | a :: b :: ws => simp [heredocWord, WordOk]

variable {n : Nat} {R : Rec AIter B} (hR : RecGood T n R)
include hR

theorem tr_redirectHeredoc (hi : T.Inv s) (hn : s.len ≤ n) (fd : Option Nat)
    (hp : s.it.peek = some .DLess ∨ s.it.peek = some .DLessDash) :
    T.Tr (redirectHeredoc R fd) s (fun _ s' => s'.len < s.len) := by
  obtain ⟨⟨l, e⟩, b⟩ := s
  rcases l with _ | ⟨⟨p, t⟩, l⟩
  · simp [AIter.peek] at hp
  have ht : HeredocOp t := by simpa [AIter.peek, HeredocOp] using hp
  have hs : T.HS := T.seen hi.j ht
  unfold redirectHeredoc
  refine tr_bind (Q1 := fun strip s' => s' = st l e b ∧ strip = decide (t = .DLessDash))
    (tr_of_eq (a := decide (t = .DLessDash)) (s' := st l e b) ?_ (fr_suffix (xs := [(p, t)]) hi) ⟨rfl, rfl⟩) ?_
  · rcases ht with rfl | rfl
    · exact eatMaybe_bind_yes ..
    · exact (eatMaybe_bind_no _ (by simp)).trans (eatMaybe_bind_yes ..)
  rintro strip s1 f1 ⟨rfl, rfl⟩
  refine tr_bind (tr_skipWhitespace f1.inv) ?_
  rintro _ s2 f2 ⟨-, bs, hb, h2⟩
  refine tr_bind (tr_heredocDelim f2.inv) ?_
  rintro ⟨quoted, delim⟩ s3 f3 ⟨u, hu1, hu2⟩
  simp only
  rw [tr_getPos]
  refine Theory.Tr0.to hs ?_
  refine tr0_bind (tr_saveLine f3.inv).to0 ?_
  rintro _ s4 i4 ⟨f4, sv, hv1, hv2, rfl⟩
  obtain ⟨⟨l4, e4⟩, b4⟩ := s4
  obtain ⟨⟨l3, e3⟩, b3⟩ := s3
  obtain ⟨⟨l2, e2⟩, b2⟩ := s2
  obtain rfl : e2 = e := f2.endPos
  obtain rfl : e3 = e2 := f3.endPos
  obtain rfl : e4 = e3 := f4.endPos
  simp only at h2 hu1 hu2 hv1 hv2
  subst hv1 hu1
  refine tr0_bind (m := getPos) (Q1 := fun p s' => p = AIter.pos ⟨l4, e4⟩ ∧ s' = st l4 e4 b4)
    ⟨i4, rfl, rfl, rfl⟩ ?_
  rintro _ _ - ⟨rfl, rfl⟩
  obtain ⟨cs, r, hc1, hc2⟩ := lines_total (decide (t = .DLessDash)) delim l4 e4 b4
  obtain ⟨xs, hx, hxl⟩ := hc2.suffix
  have hH : Here t ⟨l, e4⟩ ⟨annotate (AIter.pos ⟨sv ++ l4, e4⟩) (sv.map (·.2)) ++ r, e4⟩
      ⟨chunkToks cs, AIter.pos ⟨l4, e4⟩⟩ := by
    refine ⟨bs ++ u, sv, l4, cs, r, by simpa using h2, ?_, hc2, rfl, rfl⟩
    exact hv2.prepend (hb.units.append hu2)
  obtain ⟨hj1, hj2⟩ := T.here hi.j ht hH
  have hl : l.length = bs.length + u.length + sv.length + xs.length + r.length := by
    have := congrArg List.length h2
    rw [hx] at this
    simpa [Nat.add_assoc] using this
  refine tr0_bind (Q1 := fun ls s' => ls = cs ∧ s' = st r e4 b4)
    (tr0_of_eq hc1 ⟨?_, i4.k⟩ rfl ⟨rfl, rfl⟩) ?_
  · have := i4.j
    simp only [hx] at this
    exact T.suffix this
  rintro ls s5 i5 ⟨h1, h5⟩
  subst h5
  replace h1 := h1.symm
  subst h1
  refine tr0_bind (m := bufferFirst _ _)
    (Q1 := fun _ s' => s' = st (annotate (AIter.pos ⟨sv ++ l4, e4⟩) (sv.map (·.2)) ++ r) e4 b4)
    (tr0_of_eq rfl ⟨hj1, i4.k⟩ rfl rfl) ?_
  rintro _ _ i6 rfl
  have hl6 : (st (annotate (AIter.pos ⟨sv ++ l4, e4⟩) (sv.map (·.2)) ++ r) e4 b4 : PSt AIter B).len =
      sv.length + r.length := by
    have := congrArg List.length (annotate_toks (AIter.pos ⟨sv ++ l4, e4⟩) (sv.map (·.2)))
    simp at this
    simp [PSt.len, st, this]
  refine (Theory.Tr.to0 (Q := fun _ _ => True) ?_).mono (fun a s' h => ?_)
  · refine tr_bind (Q1 := fun w _ => WordOk w) ?_ ?_
    · split
      · exact tr_pure i6 trivial
      · refine tr_bind (tr_withIter (Q := fun _ => True) i6 hs ?_) ?_
        · refine tr_wordInterpolatedRaw hR (Theory.Inv.mk ?_ ?_) ?_ none (fun _ => hs) (by simp)
          · show T.J (List.foldr _ _ cs)
            rw [foldr_buffer]
            exact hj2
          · exact i6.k
          · show (AIter.rest (List.foldr _ _ cs)).length ≤ n
            rw [foldr_buffer_len]
            unfold linesLen
            simp [PSt.len] at hn
            omega
        · rintro b s7 f7 -
          exact tr_pure f7.inv (heredocWord_ok b)
    · rintro w s7 f7 hw
      refine tr_bind (tr_call f7.inv hw) ?_
      rintro w s8 f8 -
      refine (tr_call f8.inv ?_).mono (fun _ _ _ _ => trivial)
      trivial
  · have := h.1.len
    rw [hl6] at this
    refine ⟨?_, ?_⟩
    · show s'.len ≤ (sv ++ l4).length
      rw [hx]; simp; omega
    · show s'.len < (_ :: l).length
      simp; omega

/-! ## Redirections -/

theorem tr_getPath (hi : T.Inv s) (hn : s.len ≤ n) : T.Tr (getPath R) s (fun _ _ => True) := by
  unfold getPath
  refine tr_bind (tr_wordRaw hR hi hn) ?_
  rintro (_ | w) s1 f1 h1
  · exact tr_unexpected f1.inv
  · exact (tr_call (c := .word w) f1.inv (h1 w rfl).1).mono (fun _ _ _ _ => trivial)

theorem tr_getDupPath (hi : T.Inv s) (hn : s.len ≤ n) :
    T.Tr (getDupPath R) s (fun _ _ => True) := by
  unfold getDupPath
  refine tr_bind (tr_peekReservedToken hi _) ?_
  rintro a s1 f1 -
  have := f1.len
  split
  · refine tr_bind (tr_reservedToken f1.inv _) ?_
    rintro d s2 f2 -
    refine (tr_call f2.inv ?_).mono (fun _ _ _ _ => trivial)
    trivial
  · rw [tr_getPos]
    refine tr_bind (tr_wordRaw hR f1.inv (by omega)) ?_
    rintro (_ | w) s2 f2 h2
    · exact tr_unexpected f2.inv
    · simp only
      split
      · exact (tr_call (c := .word w) f2.inv (h2 w rfl).1).mono (fun _ _ _ _ => trivial)
      · rw [tr_getPos]
        exact tr_fail ⟨f2.k, f2.range f1.inv (h2 w rfl).2⟩

theorem tr_redirectTail (hi : T.Inv s) (hn : s.len ≤ n) (fd : Option Nat) (op : Token)
    (hop : op.isRedirOp = true) : T.Tr (redirectTail R fd op) s (fun _ _ => True) := by
  unfold redirectTail
  refine tr_bind (tr_skipWhitespace hi) ?_
  rintro _ s1 f1 -
  have := f1.len
  have h1 : ∀ k : B.Word → RedirectKind B.Word,
      T.Tr (do let w ← getPath R; call (.redirect (k w))) s1 (fun _ _ => True) := by
    intro k
    refine tr_bind (tr_getPath hR f1.inv (by omega)) ?_
    rintro w s2 f2 -
    refine (tr_call f2.inv ?_).mono (fun _ _ _ _ => trivial)
    trivial
  have h2 : ∀ k : B.Word → RedirectKind B.Word,
      T.Tr (do let w ← getDupPath R; call (.redirect (k w))) s1 (fun _ _ => True) := by
    intro k
    refine tr_bind (tr_getDupPath hR f1.inv (by omega)) ?_
    rintro w s2 f2 -
    refine (tr_call f2.inv ?_).mono (fun _ _ _ _ => trivial)
    trivial
  cases op <;> first
    | exact h1 _
    | exact h2 _
    | simp [Token.isRedirOp] at hop

theorem tr_redirectFd (hi : T.Inv s) (hn : s.len ≤ n)
    (fd : Option (Nat × ComplexWordKind B.Command)) (hfd : ∀ x, fd = some x → WordOk x.2) :
    T.Tr (redirectFd R fd) s (fun a s' => a ≠ none → fd = none → s'.len < s.len) := by
  unfold redirectFd
  rw [tr_peek]
  split
  · rename_i h
    refine tr_bind (tr_next hi) ?_
    rintro a s1 f1 ⟨rfl, h1⟩
    cases hp : s.it.peek with
    | none => simp [hp] at h
    | some op =>
      have := h1 (by simp [hp])
      simp only [hp, Option.any_some] at h
      refine tr_bind (tr_redirectTail hR f1.inv (by omega) _ op h) ?_
      rintro r s2 f2 -
      have := f2.len
      exact tr_pure f2.inv (fun _ _ => by omega)
  split
  · rename_i h
    refine tr_bind (tr_redirectHeredoc hR hi hn _ (by simpa using h)) ?_
    rintro r s1 f1 h1
    exact tr_pure f1.inv (fun _ _ => h1)
  · cases fd with
    | none => exact tr_pure hi (by simp)
    | some x =>
      obtain ⟨m, w⟩ := x
      refine tr_bind (tr_call hi (c := .word w) (hfd _ rfl)) ?_
      rintro w s1 f1 -
      exact tr_pure f1.inv (by simp)

theorem tr_redirect (hi : T.Inv s) (hn : s.len ≤ n) :
    T.Tr (redirect R) s (fun a s' => a ≠ none → s'.len < s.len) := by
  unfold redirect
  refine tr_bind (tr_wordRaw hR hi hn) ?_
  rintro (_ | w) s1 f1 h1
  · have := f1.len
    refine (tr_redirectFd hR f1.inv (by omega) none (by simp)).mono ?_
    intro a s2 f2 h2 h
    have := h2 h rfl
    omega
  · obtain ⟨h2, h3⟩ := h1 w rfl
    simp only
    split
    · rename_i m _
      refine (tr_redirectFd hR f1.inv (by omega) (some (m, w)) ?_).mono ?_
      · rintro x hx; cases hx; exact h2
      · intro a s2 f2 _ _
        have := f2.len
        omega
    · refine tr_bind (tr_call f1.inv (c := .word w) h2) ?_
      rintro w s2 f2 -
      have := f2.len
      exact tr_pure f2.inv (fun _ => by omega)

theorem tr_redirectList (hi : T.Inv s) (hn : s.len ≤ n) :
    T.Tr (redirectList R) s (fun _ _ => True) := by
  unfold redirectList
  refine tr_loop hi (fun _ _ => True) trivial ?_
  rintro acc s1 f1 -
  have := f1.len
  unfold redirectListBody
  refine tr_bind (tr_skipWhitespace f1.inv) ?_
  rintro _ s2 f2 -
  have := f2.len
  rw [tr_getPos]
  refine tr_bind (tr_redirect hR f2.inv (by omega)) ?_
  rintro a s3 f3 h3
  split
  · have := h3 (by simp)
    exact tr_pure f3.inv ⟨trivial, by omega⟩
  · rw [tr_getPos]
    exact tr_fail ⟨f3.k, f3.range f2.inv (h3 (by simp))⟩
  · exact tr_pure f3.inv trivial

end
end Conch
