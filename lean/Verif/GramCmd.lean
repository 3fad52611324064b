import Verif.GramSubst
/-!
# Exact runs of commands, without positions
-/
namespace Conch.Gram
open Conch

section
variable {B : Builder} {R : Rec AIter B}

/-! ## Numbers -/

theorem isDec_iff (c : Char) : isDec c = true ↔ c ∈ "0123456789".toList := by
  have h : "0123456789".toList = ['0', '1', '2', '3', '4', '5', '6', '7', '8', '9'] := rfl
  rw [h]
  unfold isDec
  simp only [Bool.and_eq_true, decide_eq_true_eq, List.mem_cons, List.not_mem_nil, or_false, Char.le_def,
    Char.ext_iff, UInt32.le_iff_toNat_le, ← UInt32.toNat_inj]
  have e0 : ('0' : Char).val.toNat = 48 := rfl
  have e1 : ('1' : Char).val.toNat = 49 := rfl
  have e2 : ('2' : Char).val.toNat = 50 := rfl
  have e3 : ('3' : Char).val.toNat = 51 := rfl
  have e4 : ('4' : Char).val.toNat = 52 := rfl
  have e5 : ('5' : Char).val.toNat = 53 := rfl
  have e6 : ('6' : Char).val.toNat = 54 := rfl
  have e7 : ('7' : Char).val.toNat = 55 := rfl
  have e8 : ('8' : Char).val.toNat = 56 := rfl
  have e9 : ('9' : Char).val.toNat = 57 := rfl
  rw [e0, e1, e2, e3, e4, e5, e6, e7, e8, e9]
  omega

theorem allDigits_iff (s : Str) : s.all isDec = true ↔ AllDigits s := by
  unfold AllDigits
  simp only [List.all_eq_true, isDec_iff]

theorem simple_numeric_iff {C : Type} (w : SimpleWordKind C) : w.couldBeNumeric = true ↔ NumericSimple w := by
  constructor
  · intro h
    cases w with
    | Literal s => exact .literal ((allDigits_iff s).1 h)
    | Escaped s => exact .escaped ((allDigits_iff s).1 h)
    | Param p => exact .param
    | Subst s => exact .subst
    | CommandSubst g => exact .command
    | _ => cases h
  · intro h
    cases h with
    | literal h => exact (allDigits_iff _).2 h
    | escaped h => exact (allDigits_iff _).2 h
    | _ => rfl

theorem part_numeric_iff {C : Type} (w : WordKind C) : w.couldBeNumeric = true ↔ NumericPart w := by
  constructor
  · intro h
    cases w with
    | Simple s => exact .simple ((simple_numeric_iff s).1 h)
    | SingleQuoted s => exact .single ((allDigits_iff s).1 h)
    | DoubleQuoted ss =>
      exact .double fun s hs => (simple_numeric_iff s).1 (List.all_eq_true.1 h s hs)
  · intro h
    cases h with
    | simple h => exact (simple_numeric_iff _).2 h
    | single h => exact (allDigits_iff _).2 h
    | double h => exact List.all_eq_true.2 fun s hs => (simple_numeric_iff s).2 (h s hs)

theorem numeric_iff {C : Type} (w : ComplexWordKind C) : w.couldBeNumeric = true ↔ NumericWord w := by
  constructor
  · intro h
    cases w with
    | Single w => exact .single ((part_numeric_iff w).1 h)
    | Concat ws => exact .concat fun w hw => (part_numeric_iff w).1 (List.all_eq_true.1 h w hw)
  · intro h
    cases h with
    | single h => exact (part_numeric_iff _).2 h
    | concat h => exact List.all_eq_true.2 fun w hw => (part_numeric_iff w).2 (h w hw)

theorem unsigned_signed {max : Nat} {s : Str} {n : Nat} (h : parseUnsigned 10 max s = some n) :
    Spec.Signed 10 s n ∧ n ≤ max ∧ s.head? ≠ some '-' := by
  rw [parseUnsigned_iff] at h
  obtain ⟨h1, ds, r, hr, h2, h3, rfl⟩ := h
  rcases hr with rfl | rfl
  · refine ⟨.plain h2 h3, h1, ?_⟩
    cases s with
    | nil => simp
    | cons c s =>
      rintro h; cases h
      obtain ⟨hl, h3⟩ := h3
      cases ds with
      | nil => cases hl
      | cons d ds =>
        have := (h3 ('-', d) (by simp)).1
        simp [Spec.digitTable] at this
  · exact ⟨.plus h2 h3, h1, by simp⟩

theorem literalText_iff {C : Type} (ws : List (WordKind C)) (s : Str) : literalText ws = some s ↔
    ∃ ss : List Str, ws = ss.map (fun s => .Simple (.Literal s)) ∧ s = ss.flatten := by
  constructor
  · intro h
    induction ws generalizing s with
    | nil => cases h; exact ⟨[], rfl, rfl⟩
    | cons w ws ih =>
      unfold literalText at h
      split at h
      · rename_i heq; cases heq
      · rename_i heq
        cases heq
        rw [Option.map_eq_some_iff] at h
        obtain ⟨u, hu, rfl⟩ := h
        obtain ⟨ss, rfl, rfl⟩ := ih _ hu
        exact ⟨_ :: ss, rfl, rfl⟩
      · cases h
  · rintro ⟨ss, rfl, rfl⟩
    induction ss with
    | nil => rfl
    | cons s ss ih =>
      simp only [List.map_cons, literalText, ih]
      rfl

theorem asNum_iff {C : Type} (w : ComplexWordKind C) (n : Nat) : w.asNum = some n ↔ FdWord w n := by
  constructor
  · intro h
    unfold ComplexWordKind.asNum at h
    split at h
    · obtain ⟨h1, h2, h3⟩ := unsigned_signed h
      exact ⟨_, .single, h1, h2, h3⟩
    · cases h
    · rw [Option.bind_eq_some_iff] at h
      obtain ⟨s, hs, h⟩ := h
      obtain ⟨ss, rfl, rfl⟩ := (literalText_iff _ _).1 hs
      obtain ⟨h1, h2, h3⟩ := unsigned_signed h
      exact ⟨_, .concat, h1, h2, h3⟩
  · rintro ⟨s, hw, h1, h2, h3⟩
    have := signed_unsigned (max := 65535) h1 (by omega) h3
    cases hw with
    | single => unfold ComplexWordKind.asNum; simpa using this
    | concat =>
      unfold ComplexWordKind.asNum
      dsimp only
      rw [(literalText_iff _ _).2 ⟨_, rfl, rfl⟩]
      simpa using this

theorem asNum_none {C : Type} {w : ComplexWordKind C} (h : ¬ ∃ n, FdWord w n) : w.asNum = none := by
  cases hn : w.asNum with
  | none => rfl
  | some n => exact absurd ⟨n, (asNum_iff w n).1 hn⟩ h

/-! ## Redirections -/

theorem getPath_run {l r : List Token} {k w} {b b' b'' : B.State}
    (h : Run (wordRawDelim R none) l b (some k) r b') (hw : B.call (.word k) b' = (.ok w, b'')) :
    Run (getPath R) l b w r b'' := by
  unfold getPath wordRaw
  exact .bind h (.call hw)

theorem getDupPath_dash {l r : List Token} {w} {b b' : B.State} (h : Skip l (.Dash :: r)) (he : EndsWord r)
    (hw : B.call (.word (.Single (.Simple (.Literal Token.Dash.asStr)))) b = (.ok w, b')) :
    Run (getDupPath R) l b w r b' := by
  unfold getDupPath
  refine .bind (Run.peekToken (by simp [Token.isWs]) (List.mem_singleton.2 rfl) h he) ?_
  refine Run.bind (Run.token' (by simp [Token.isWs]) (List.mem_singleton.2 rfl) (.refl h.noBlank) he) ?_
  exact .call hw

theorem getDupPath_run {l r : List Token} {k w} {b b' b'' : B.State} (hb : NoBlank l)
    (hd : ∀ r, l = .Dash :: r → ¬ EndsWord r)
    (h : Run (wordRawDelim R none) l b (some k) r b') (hn : NumericWord k)
    (hw : B.call (.word k) b' = (.ok w, b'')) :
    Run (getDupPath R) l b w r b'' := by
  unfold getDupPath
  refine .bind (Run.peekNoToken (by simp) (by simp [Token.isWs]) (.refl hb) ?_) ?_
  · intro t ht; rw [List.mem_singleton] at ht; subst ht; exact hd
  · refine Run.getPos fun p => ?_
    unfold wordRaw
    refine .bind h ?_
    simp only [(numeric_iff k).2 hn, if_true]
    exact .call hw

theorem path_tail {fd t mk} {l l' r : List Token} {w a} {b b' b'' : B.State} (h : (t, mk) ∈ pathOps B.Word)
    (hs : Skip l l') (hp : Run (getPath R) l' b w r b') (hc : B.call (.redirect (mk fd w)) b' = (.ok a, b'')) :
    Run (redirectTail R fd t) l b a r b'' := by
  have : redirectTail R fd t = (do skipWhitespace; let w ← getPath R; Conch.call (.redirect (mk fd w))) := by
    unfold redirectTail
    simp only [pathOps, List.mem_cons, List.not_mem_nil, or_false, Prod.mk.injEq] at h
    rcases h with ⟨rfl, rfl⟩ | ⟨rfl, rfl⟩ | ⟨rfl, rfl⟩ | ⟨rfl, rfl⟩ | ⟨rfl, rfl⟩ <;> rfl
  rw [this]
  exact .bind (.skip hs) (.bind hp (.call hc))

theorem dup_tail {fd t mk} {l l' r : List Token} {w a} {b b' b'' : B.State} (h : (t, mk) ∈ dupOps B.Word)
    (hs : Skip l l') (hp : Run (getDupPath R) l' b w r b')
    (hc : B.call (.redirect (mk fd w)) b' = (.ok a, b'')) :
    Run (redirectTail R fd t) l b a r b'' := by
  have : redirectTail R fd t = (do skipWhitespace; let w ← getDupPath R; Conch.call (.redirect (mk fd w))) := by
    unfold redirectTail
    simp only [dupOps, List.mem_cons, List.not_mem_nil, or_false, Prod.mk.injEq] at h
    rcases h with ⟨rfl, rfl⟩ | ⟨rfl, rfl⟩ <;> rfl
  rw [this]
  exact .bind (.skip hs) (.bind hp (.call hc))

theorem pathOps_isRedirOp {W : Type} {t mk} (h : (t, mk) ∈ pathOps W) : t.isRedirOp = true := by
  simp only [pathOps, List.mem_cons, List.not_mem_nil, or_false, Prod.mk.injEq] at h
  rcases h with ⟨rfl, rfl⟩ | ⟨rfl, rfl⟩ | ⟨rfl, rfl⟩ | ⟨rfl, rfl⟩ | ⟨rfl, rfl⟩ <;> rfl

theorem dupOps_isRedirOp {W : Type} {t mk} (h : (t, mk) ∈ dupOps W) : t.isRedirOp = true := by
  simp only [dupOps, List.mem_cons, List.not_mem_nil, or_false, Prod.mk.injEq] at h
  rcases h with ⟨rfl, rfl⟩ | ⟨rfl, rfl⟩ <;> rfl

theorem redirectFd_op {fd : Option (Nat × ComplexWordKind B.Command)} {t} {l r : List Token} {a}
    {b b' : B.State} (h : t.isRedirOp = true)
    (ht : Run (redirectTail R (fd.map (·.1)) t) l b a r b') :
    Run (redirectFd R fd) (t :: l) b (some (.inl a)) r b' := by
  unfold redirectFd
  refine .peekCons ?_
  rw [if_pos (by simpa using h)]
  exact Run.next (.bind ht .pure)

theorem redirectFd_heredoc {fd : Option (Nat × ComplexWordKind B.Command)} {t} {l r : List Token} {a}
    {b b' : B.State} (h : t = .DLess ∨ t = .DLessDash)
    (ht : Run (redirectHeredoc R (fd.map (·.1))) (t :: l) b a r b') :
    Run (redirectFd R fd) (t :: l) b (some (.inl a)) r b' := by
  unfold redirectFd
  refine .peekCons ?_
  rcases h with rfl | rfl <;> exact .bind ht .pure

theorem redirOps_iff (t : Token) : t ∈ redirOps ↔ t.isRedirOp = true ∨ t = .DLess ∨ t = .DLessDash := by
  unfold redirOps
  constructor
  · simp only [List.mem_cons, List.not_mem_nil, or_false]
    rintro (rfl | rfl | rfl | rfl | rfl | rfl | rfl | rfl | rfl) <;> simp [Token.isRedirOp]
  · rintro (h | rfl | rfl)
    · cases t <;> first | (simp; done) | cases h
    · simp
    · simp

theorem redirectFd_noop {l : List Token} (h : ∀ t r', l = t :: r' → t ∉ redirOps) :
    l.head?.any Token.isRedirOp = false ∧ ¬ (l.head? = some .DLess ∨ l.head? = some .DLessDash) := by
  cases l with
  | nil => simp
  | cons t l =>
    have := h t l rfl
    rw [redirOps_iff] at this
    simp only [List.head?_cons, Option.any_some, Option.some.injEq]
    exact ⟨by simpa using fun h => this (.inl h), fun h => this (.inr h)⟩

theorem redirectFd_word {n k} {l : List Token} {w} {b b' : B.State} (h : ∀ t r', l = t :: r' → t ∉ redirOps)
    (hw : B.call (.word k) b = (.ok w, b')) :
    Run (redirectFd R (some (n, k))) l b (some (.inr w)) l b' := by
  unfold redirectFd
  obtain ⟨h1, h2⟩ := redirectFd_noop h
  refine .peek ?_
  rw [if_neg (by simp [h1]), if_neg (by simpa using h2)]
  exact .bind (.call hw) .pure

theorem redirectFd_none {l : List Token} {b : B.State} (h : ∀ t r', l = t :: r' → t ∉ redirOps) :
    Run (redirectFd R none) l b none l b := by
  unfold redirectFd
  obtain ⟨h1, h2⟩ := redirectFd_noop h
  refine .peek ?_
  rw [if_neg (by simp [h1]), if_neg (by simpa using h2)]
  exact .pure

theorem redirect_none {l l' r : List Token} {x} {b b' b'' : B.State}
    (h : Run (wordRawDelim R none) l b none l' b') (hr : Run (redirectFd R none) l' b' x r b'') :
    Run (redirect R) l b x r b'' := by
  unfold redirect wordRaw
  exact .bind h hr

theorem redirect_fd {l l' r : List Token} {x k n} {b b' b'' : B.State}
    (h : Run (wordRawDelim R none) l b (some k) l' b') (hk : FdWord k n)
    (hr : Run (redirectFd R (some (n, k))) l' b' x r b'') :
    Run (redirect R) l b x r b'' := by
  unfold redirect wordRaw
  refine .bind h ?_
  dsimp only
  rw [(asNum_iff k n).2 hk]
  exact hr

theorem redirect_word {l r : List Token} {k w} {b b' b'' : B.State}
    (h : Run (wordRawDelim R none) l b (some k) r b')
    (hk : (∃ n, FdWord k n) → ∀ t r', r = t :: r' → t ∉ redirOps)
    (hw : B.call (.word k) b' = (.ok w, b'')) :
    Run (redirect R) l b (some (.inr w)) r b'' := by
  by_cases hn : ∃ n, FdWord k n
  · obtain ⟨n, hn'⟩ := hn
    exact redirect_fd h hn' (redirectFd_word (hk ⟨n, hn'⟩) hw)
  · unfold redirect wordRaw
    refine .bind h ?_
    dsimp only
    rw [asNum_none hn]
    exact .bind (.call hw) .pure

theorem redirectList_nil {l l' r : List Token} {acc} {b b' : B.State} (hs : Skip l l')
    (h : Run (redirect R) l' b none r b') : Run (redirectListBody R acc) l b (.done acc) r b' := by
  unfold redirectListBody
  exact .bind (.skip hs) (.getPos fun _ => .bind h .pure)

theorem redirectList_cons {l l' r : List Token} {acc a} {b b' : B.State} (hs : Skip l l')
    (h : Run (redirect R) l' b (some (.inl a)) r b') :
    Run (redirectListBody R acc) l b (.cont (acc ++ [a])) r b' := by
  unfold redirectListBody
  exact .bind (.skip hs) (.getPos fun _ => .bind h .pure)

/-! ## Simple commands -/

theorem mpAssignment_it (m : AMultipeek) : (mpAssignment (I := AIter) m).2.it = m.it := by
  unfold mpAssignment
  dsimp only
  split <;> rfl

theorem mpAssignment_val (it : AIter) (l : List Token) :
    (mpAssignment (I := AIter) (AMultipeek.mk it l)).1 = true ↔ AssignStart l := by
  unfold mpAssignment AssignStart
  simp only [TokStream.mpNext]
  rcases l with _ | ⟨t, _ | ⟨u, l⟩⟩
  · simp
  · cases t <;> simp [Token.isName]
  · cases t <;> simp [Token.isName]

theorem prefix_assignEmpty {l l' : List Token} {x w acc} {b : B.State}
    (hs : Skip l (.Name x :: .Equals :: .Whitespace w :: l')) :
    Run (simplePrefixBody R acc) l b (.cont (acc ++ [.EnvVar x none])) (.Whitespace w :: l') b := by
  unfold simplePrefixBody
  refine .bind (.skip hs) (.lookahead true mpAssignment_it (fun it => ?_) ?_)
  · rw [mpAssignment_val]; exact ⟨_, _, rfl⟩
  · refine Run.next (.next ?_)
    refine Run.bind (a := none) (r := .Whitespace w :: l') (b' := b) ?_ .pure
    exact .peekCons .pure

theorem prefix_assign {l l' r : List Token} {x v acc} {b b' : B.State}
    (hs : Skip l (.Name x :: .Equals :: l')) (hn : ∀ w l2, l' ≠ .Whitespace w :: l2)
    (hw : Run (word R) l' b v r b') :
    Run (simplePrefixBody R acc) l b (.cont (acc ++ [.EnvVar x v])) r b' := by
  unfold simplePrefixBody
  refine .bind (.skip hs) (.lookahead true mpAssignment_it (fun it => ?_) ?_)
  · rw [mpAssignment_val]; exact ⟨_, _, rfl⟩
  · refine Run.next (.next ?_)
    refine Run.bind (a := v) (r := r) (b' := b') ?_ .pure
    refine .peek ?_
    rw [if_neg]
    · exact hw
    · cases l' with
      | nil => simp
      | cons t l' => cases t <;> first | (simp [Token.isWs]; done) | exact absurd rfl (hn _ _)

theorem prefix_other {l l' r : List Token} {acc x y} {b b' : B.State}
    (hs : Skip l l') (hn : ¬ AssignStart l') (h : Run (redirect R) l' b x r b')
    (hy : Run (B := B) (match x with
      | some (.inl r) => pure (.cont (acc ++ [.Redirect r]))
      | some (.inr w) => pure (.done (acc, some w))
      | none => pure (.done (acc, none)) :
      P AIter B (Step (List (RedirectOrEnvVar B.Redirect Str B.Word)) (SimplePrefix B))) r b' y r b') :
    Run (simplePrefixBody R acc) l b y r b' := by
  unfold simplePrefixBody
  refine .bind (.skip hs) (.lookahead false mpAssignment_it (fun it => ?_) ?_)
  · rw [← Bool.not_eq_true, mpAssignment_val]; exact hn
  · rw [if_neg (by simp)]
    refine .bind h ?_
    rcases x with _ | (x | x) <;> exact hy

theorem args_step {l r : List Token} {acc x} {b b' : B.State} (h : Run (redirect R) l b (some x) r b') :
    Run (simpleArgsBody R acc) l b (.cont (acc ++ [Sum.elim .Redirect .CmdWord x])) r b' := by
  unfold simpleArgsBody
  refine .bind h ?_
  rcases x with x | x <;> exact .pure

theorem args_end {l r : List Token} {acc} {b b' : B.State} (h : Run (redirect R) l b none r b') :
    Run (simpleArgsBody R acc) l b (.done acc) r b' := by
  unfold simpleArgsBody
  exact .bind h .pure

theorem simple_run {l l' r : List Token} {vs e as c} {b b' b'' b3 : B.State}
    (h1 : LRun (simplePrefixBody R) [] l b (vs, e) l' b')
    (h2 : LRun (simpleArgsBody R) (e.toList.map .CmdWord) l' b' (e.toList.map .CmdWord ++ as) r b'')
    (hne : vs ≠ [] ∨ e.isSome ∨ as ≠ [])
    (hc : B.call (.simpleCommand vs (e.toList.map .CmdWord ++ as)) b'' = (.ok c, b3)) :
    Run (simpleCommand R) l b c r b3 := by
  unfold simpleCommand
  refine .bind h1.run (.bind h2.run ?_)
  rw [if_neg]
  · exact .call hc
  · rcases hne with h | h | h
    · simp [h]
    · cases e with
      | none => cases h
      | some e => simp
    · simp [h]

end
end Conch.Gram
