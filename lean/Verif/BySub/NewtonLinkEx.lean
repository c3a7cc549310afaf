import Verif.BySub.NewtonLinkProps
import Verif.BySub.NewtonEx
import Verif.HI.JacobianEx

/-!
# C115: a solver
-/

namespace Hpp

open Matrix

namespace BsLinkEx

open BsR (E cE part iE)

/-- Derivative of the difference of two vectors. -/
abbrev D := HIJacEx.D

/-- Velocity of a curve of a vector space. -/
abbrev Vel := HIJacEx.Vel

/-- `q ↦ q₁ - 2` -/
noncomputable def fI : Fn ℝ Nat where
  key := 11
  inputSize := 2
  inputDer := 2
  spaceId := 1
  space := vectorSpace ℝ 1
  value q := [q 1 - 2]
  jac _ := fun _ k => if k = 1 then 1 else 0
  activeQ := [false, true]
  active := [false, true]

/-- `q₁ = 2` -/
noncomputable def iI : Impl ℝ Nat := (Impl.create fI [.equalToZero] []).get rfl
theorem iI_built : Impl.Built fI [] [.equalToZero] iI := .create _ _ (Option.some_get _).symm

noncomputable def cI : BCon ℝ Nat := ⟨iI, none⟩

/-- The explicit constraint `q₁ = q₀²` and the implicit constraint `q₁ = 2`. -/
noncomputable def s1 : BS ℝ Nat := (BsR.s.add 20 cI 0).1

noncomputable def s : BS ℝ Nat := { s1 with
  hi := { s1.hi with sqThr := 1 / 10 * (1 / 10), ineqThr := 0, maxIter := 3, lastIsOptional := false, byLevel := false }
  ex := { s1.ex with threshold := 1 / 10 } }

noncomputable def hist : BHist ℝ Nat := [(cE, 0, true), (cI, 0, false)]

theorem s_built : BS.Built E 2 2 hist s :=
  .params _ _ _ _ _ _ (.add (h := [(cE, 0, true)]) (s := BsR.s) (c := cI) (p := 0) (fuel := 20) (junk := [])
    BsR.s_built ⟨_, _, _, iI_built⟩ (Prod.ext rfl rfl))

noncomputable def lev : Level ℝ Nat := (s.hi.levels[0]?).get rfl

theorem lev_eq : s.hi.levels[0]? = some lev := (Option.some_get _).symm
theorem levels_eq : s.hi.levels = [lev] := rfl
theorem free_eq : indices s.hi.free.segs = [0] := rfl
theorem impl_eq : implOf hist = [(iI, 0)] := rfl
theorem rows_eq : indices (s.rows lev).segs = [0] := by decide
theorem expl_eq : explOf hist = [part.econ iE] := rfl
theorem data_eq : s.ex.data = BsR.s.ex.data := rfl
theorem ex_eq : s.ex = { BsR.s.ex with threshold := 1 / 10 } := rfl


theorem lawful : BHist.Lawful E hist where
  law := by
    intro e he
    simp only [hist, List.mem_cons, List.not_mem_nil, or_false] at he
    rcases he with rfl | rfl <;> exact vectorSpace_lawful 1
  val := by
    intro e he q
    simp only [hist, List.mem_cons, List.not_mem_nil, or_false] at he
    rcases he with rfl | rfl <;> rfl

theorem rhs (R : Nat → List ℝ) (hR : HI.RhsIs (fun f => E f.space) (implOf hist) s.hi R) : R 11 = [0] := by
  have h1 := hR.eq 0 lev lev_eq
  have h2 : lev.rhs = [0] := rfl
  have h3 : atLevel (implOf hist) 0 = [iI] := rfl
  rw [h2, h3] at h1
  simp only [List.flatMap_cons, List.flatMap_nil, List.append_nil] at h1
  exact h1.symm

theorem conErr (q : Nat → ℝ) : conError s.hi.ineqThr q iI [0] = [q 1 - 2] := by
  show [q 1 - 2 - 0] = _
  rw [sub_zero]

theorem inv : ∃ R, HI.Inv (implOf hist) s.hi ∧ FnsOk (fun f => E f.space) (implOf hist) ∧
    HI.RhsIs (fun f => E f.space) (implOf hist) s.hi R ∧ R 11 = [0] := by
  obtain ⟨l1, l2⟩ := lawful.impl
  obtain ⟨hs, hf, R, hR⟩ := s_built.parts.1.inv l1 l2
  exact ⟨R, hs, hf, hR, rhs R hR⟩

theorem sqNorm_eq (q : Nat → ℝ) : s.hi.sqNorm q = some ((q 1 - 2) ^ 2) := by
  obtain ⟨R, hs, hf, hR, h2⟩ := inv
  rw [solver_sqNorm_eq hs hf hR (fun h => by cases h)]
  have h1 : (List.range s.hi.nMandatory).flatMap (atLevel (implOf hist)) = [iI] := rfl
  rw [h1, List.foldl_cons, List.foldl_nil]
  have h2 : R iI.fn.key = [0] := h2
  rw [h2, conErr]
  congr 1
  show max 0 (0 + (q 1 - 2) * (q 1 - 2)) = _
  rw [zero_add, max_eq_right (mul_self_nonneg _)]
  ring

theorem lErr_eq (q : Nat → ℝ) : s.lErr D (fun _ _ => 0) q lev 0 = q 1 - 2 := by
  obtain ⟨R, hs, hf, hR, h2⟩ := inv
  rw [bs_lErr hs hf hR lev_eq]
  have h2 : R iI.fn.key = [0] := h2
  have h3 : atLevel (implOf hist) 0 = [iI] := rfl
  rw [h3, List.flatMap_cons, List.flatMap_nil, List.append_nil, h2, conErr]
  rfl

theorem lJac_eq (q : Nat → ℝ) (k : Nat) : s.lJac D (fun _ _ => 0) q lev 0 k = if k = 1 then 1 else 0 := by
  obtain ⟨R, hs, hf, hR, h2⟩ := inv
  obtain ⟨E, hE, -, -, -, -, -, hJ⟩ := level_evalJac hs hf hR lev_eq D s.hi.ineqThr s.hi.free.segs q fun _ _ => 0
  have h2 : R iI.fn.key = [0] := h2
  unfold BS.lJac
  rw [hE, Option.map_some, Option.getD_some]
  have := hJ [] iI [] rfl 0 Nat.one_pos .equalToZero true (q 1 - 2 - 0) rfl rfl (by rw [h2]; rfl) k
  rw [if_neg (by rintro (⟨h, -⟩ | ⟨h, -⟩) <;> cases h)] at this
  refine this.trans ?_
  show ∑ j ∈ Finset.range 1, (if 0 = j then (1 : ℝ) else 0) * (if k = 1 then 1 else 0) = _
  simp

theorem rows_zero (r : Fin (indices (s.rows lev).segs).length) : (indices (s.rows lev).segs).getD r 0 = 0 := by
  have h := r.2
  generalize r.1 = k at h
  rw [rows_eq] at h ⊢
  have h5 : k = 0 := Nat.lt_one_iff.1 h
  rw [h5]; rfl

theorem dErr_eq (q : Nat → ℝ) (r) : s.dErr D (fun _ _ => 0) q lev r = q 1 - 2 := by
  unfold BS.dErr
  rw [rows_zero, lErr_eq]

theorem sub_eq (q : Nat → ℝ) (x : Fin (indices s.hi.free.segs).length → ℝ) :
    bsSub s q x 0 = q 0 + x ⟨0, Nat.one_pos⟩ ∧ bsSub s q x 1 = (q 0 + x ⟨0, Nat.one_pos⟩) ^ 2 :=
  BsR.sub_zero' q x

theorem dJ_eq (q : Nat → ℝ) (r c) : s.dJ D (fun _ _ => 0) q lev r c = 2 * q 0 := by
  have hc : c = ⟨0, Nat.one_pos⟩ := Subsingleton.elim (α := Fin 1) _ _
  subst hc
  have e : s.updateJ q (s.rows lev).segs (s.lJac D (fun _ _ => 0) q lev)
      (s.reducedJ0 (s.rows lev).segs (s.lJac D (fun _ _ => 0) q lev))
    = some fun r c => (s.reducedJ0 (s.rows lev).segs (s.lJac D (fun _ _ => 0) q lev)) r c +
      ([1].map fun v => s.lJac D (fun _ _ => 0) q lev ((indices (s.rows lev).segs).getD r 0) v *
        s.ex.jacobian q v ([0].getD c 0)).sum := rfl
  unfold BS.dJ
  rw [e, Option.getD_some]
  have e2 : s.reducedJ0 (s.rows lev).segs (s.lJac D (fun _ _ => 0) q lev) r 0 =
      s.lJac D (fun _ _ => 0) q lev ((indices (s.rows lev).segs).getD r 0) 0 := rfl
  have e3 : s.ex.jacobian q 1 0 = 2 * q 0 := BsR.jac10 q
  show s.reducedJ0 (s.rows lev).segs (s.lJac D (fun _ _ => 0) q lev) r 0 + _ = _
  rw [e2, rows_zero, lJac_eq]
  show (if 0 = 1 then (1 : ℝ) else 0) + (s.lJac D (fun _ _ => 0) q lev 0 1 * s.ex.jacobian q 1 0 + 0) = _
  rw [lJac_eq, e3]
  simp


theorem moves (u : ℝ → Nat → ℝ) (t0 : ℝ) (w : Nat → ℝ) (hu : ∀ k < 2, HasDerivAt (fun t => u t k) (w k) t0) :
    Moves (fun f => E f.space) (implOf hist) D Vel 2 (fun t => u (t0 + t)) w where
  diff := by
    intro e he c w r hc hr i hi
    rw [impl_eq, List.mem_singleton] at he; subst he
    have hi' : i < 1 := hi
    have hr' : r.length = 1 := hr
    have hsum : ∑ j ∈ Finset.range iI.fn.space.nv, D iI.fn.space r (c 0) i j * w j = w i := by
      rw [Finset.sum_eq_single i]
      · simp [D, HIJacEx.D]
      · intro j _ hj; simp [D, HIJacEx.D, Ne.symm hj]
      · intro h; exact absurd (Finset.mem_range.2 hi) h
    refine HasDerivAt.congr_of_eventuallyEq (((hc.2 i hi).sub_const (r.getD i 0)).congr_deriv hsum.symm) ?_
    filter_upwards with t
    have hl : (c t).length = 1 := hc.1 t
    show (List.zipWith (· - ·) (c t) r).getD i 0 = (c t).getD i 0 - r.getD i 0
    rw [List.getD_eq_getElem?_getD, List.getD_eq_getElem?_getD, List.getD_eq_getElem?_getD,
      List.getElem?_zipWith, List.getElem?_eq_getElem (by omega), List.getElem?_eq_getElem (by omega)]
    rfl
  fn := by
    intro e he
    rw [impl_eq, List.mem_singleton] at he; subst he
    refine ⟨fun t => rfl, fun i hi => ?_⟩
    have hi' : i < 1 := hi
    have hi0 : i = 0 := by omega
    subst hi0
    have h1 : HasDerivAt (fun t => u (t0 + t) 1 - 2) (w 1) 0 :=
      (HasDerivAt.comp_const_add (f := fun t => u t 1) t0 0 (by rw [add_zero]; exact hu 1 (by norm_num))).sub_const 2
    refine h1.congr_deriv ?_
    show _ = ∑ k ∈ Finset.range 2, (if k = 1 then (1 : ℝ) else 0) * w k
    simp [Finset.sum_range_succ]

theorem sum_free (f : Fin (indices s.hi.free.segs).length → ℝ) : ∑ i, f i = f ⟨0, Nat.one_pos⟩ :=
  Fin.sum_univ_one f

theorem rows_len : (indices (s.rows lev).segs).length = 1 := by rw [rows_eq]; rfl

theorem nrm_free (v : Fin (indices s.hi.free.segs).length → ℝ) : nrm v = |v ⟨0, Nat.one_pos⟩| := by
  unfold nrm dotProduct
  rw [sum_free, Real.sqrt_mul_self_eq_abs]

theorem sum_rows (x : ℝ) : ∑ _r : Fin (indices (s.rows lev).segs).length, x = x := by
  rw [Finset.sum_const, Finset.card_univ, Fintype.card_fin, rows_len, one_smul]

theorem nrm_rows (x : ℝ) : nrm (fun _ : Fin (indices (s.rows lev).segs).length => x) = |x| := by
  unfold nrm dotProduct
  rw [sum_rows, Real.sqrt_mul_self_eq_abs]

theorem dJ_mul (q : Nat → ℝ) (v) : s.dJ D (fun _ _ => 0) q lev *ᵥ v = fun _ => 2 * q 0 * v ⟨0, Nat.one_pos⟩ := by
  funext r
  show ∑ c, s.dJ D (fun _ _ => 0) q lev r c * v c = _
  rw [sum_free, dJ_eq]

/-- Constant steps. -/
noncomputable def lsK (_ : Unit) (q : Nat → ℝ) (u : Fin (indices s.hi.free.segs).length → ℝ) :
    (Unit × LsOut (Nat → ℝ) (Fin (indices s.hi.free.segs).length → ℝ)) × Bool :=
  (((), ⟨s.ex.solve (bsMove s q u), u, true, 0⟩), true)

end BsLinkEx

open BsLinkEx in
/-- The hypotheses are met by the explicit constraint `q₁ = q₀²` and the implicit constraint `q₁ = 2`, from `q₀ = 3/2`:
`SUCCESS`, and the solver declares the configuration returned satisfied. -/
theorem solves (o : SvdOps ℝ) (ho : o.Exact) (hor : o.Ortho) (J0 : (Nat → ℝ) → Jac ℝ) (dq u) :
    let r := bsSolve (s.ops D o J0 lsK) s.hi.sqThr (1 / 10 ^ 12) s.hi.maxIter s.reducedDim false s.hi.lastIsOptional
      (fun _ => 3 / 2) (dq, u, ())
    r.status = .success ∧ ∃ err, s.isSatisfied r.arg = some (err, true) := by
  intro r
  have hmem : ∀ l ∈ s.hi.levels, l = lev := fun l hl => by rw [levels_eq] at hl; exact List.mem_singleton.1 hl
  have hx : ∀ x : Fin (indices s.hi.free.segs).length → ℝ, dist x 0 ≤ 1 / 2 → |x ⟨0, Nat.one_pos⟩| ≤ 1 / 2 := by
    intro x hx
    have := (dist_le_pi_dist x 0 ⟨0, Nat.one_pos⟩).trans hx
    rwa [Real.dist_eq, Pi.zero_apply, sub_zero] at this
  have hs0 : s.hi.sqNorm (s.ex.solve fun _ => 3 / 2) = some ((1 / 4 : ℝ) ^ 2) := by
    have e := (C95_parametrises s_built rfl BsR.s_wf (coherent_of_vec BsR.s_vec) BsR.s_len (fun _ => 3 / 2)).2.1
    have e' : s.ex.solve (fun _ => 3 / 2) = bsSub s (fun _ => 3 / 2) 0 := (Prod.mk.inj e).1
    rw [BsLinkEx.sqNorm_eq, e', (sub_eq _ _).2]
    simp only [Pi.zero_apply]
    norm_num
  obtain ⟨h1, h2, ⟨x, h3, h4⟩, -⟩ := C115_success (D := D) (Vel := Vel) s_built lawful rfl BsR.s_wf BsR.s_vec BsR.s_sorted
    BsR.s_len BsR.s_deriv
    (by intro e he t ht
        rw [impl_eq, List.mem_singleton] at he; subst he
        exact .inr (List.mem_singleton.1 ht))
    moves
    (by intro e he _
        rw [impl_eq, List.mem_singleton] at he; subst he
        decide)
    rfl rfl (.inl (le_refl 1)) o ho hor (1 / 10 ^ 12) (by show (0 : ℝ) < 1 / 10 * (1 / 10); norm_num)
    (fun _ => 3 / 2) (1 / 2) 2 (1 / 2) 16 (by norm_num) (by norm_num) (by norm_num)
    (by
      intro l hl x x' _ _ v
      obtain rfl := hmem l hl
      rw [sub_mulVec, dJ_mul, dJ_mul, (sub_eq _ _).1, (sub_eq _ _).1, nrm_free, nrm_free]
      set a := x ⟨0, Nat.one_pos⟩
      set b := x' ⟨0, Nat.one_pos⟩
      set c := v ⟨0, Nat.one_pos⟩
      have e : ((fun _ => 2 * (3 / 2 + b) * c) - fun _ => 2 * (3 / 2 + a) * c :
          Fin (indices (s.rows lev).segs).length → ℝ) = fun _ => 2 * (b - a) * c := by
        funext r; simp only [Pi.sub_apply]; ring
      rw [e, nrm_rows, abs_mul, abs_mul, abs_two]
      exact le_refl _)
    (by
      intro x hxx
      have hx1 := abs_le.1 (hx x hxx)
      set a := x ⟨0, Nat.one_pos⟩ with ha'
      have ha : 0 < 3 / 2 + a := by linarith [hx1.1]
      refine ⟨fun _ => -((3 / 2 + a) ^ 2 - 2) / (2 * (3 / 2 + a)), fun l hl => ?_, ?_⟩
      · obtain rfl := hmem l hl
        funext r
        rw [dJ_mul, Pi.neg_apply, dErr_eq, (sub_eq _ _).1, (sub_eq _ _).2]
        show 2 * (3 / 2 + a) * (-((3 / 2 + a) ^ 2 - 2) / (2 * (3 / 2 + a))) = -((3 / 2 + a) ^ 2 - 2)
        rw [mul_div_cancel₀]
        linarith
      · rw [nrm_free, BsLinkEx.sqNorm_eq, (sub_eq _ _).2, Option.getD_some, Real.sqrt_sq_eq_abs]
        show |-((3 / 2 + a) ^ 2 - 2) / (2 * (3 / 2 + a))| ≤ 1 / 2 * |(3 / 2 + a) ^ 2 - 2|
        rw [abs_div, abs_neg, abs_of_pos (show 0 < 2 * (3 / 2 + a) by linarith), div_le_iff₀ (by linarith)]
        have := abs_nonneg ((3 / 2 + a) ^ 2 - 2)
        nlinarith [hx1.1])
    (by
      intro l hl x hxx v
      obtain rfl := hmem l hl
      have hx1 := abs_le.1 (hx x hxx)
      rw [dJ_mul, (sub_eq _ _).1, ← nrm_sq v, nrm_free, sq_abs]
      set a := x ⟨0, Nat.one_pos⟩
      set b := v ⟨0, Nat.one_pos⟩
      unfold dotProduct
      rw [sum_rows]
      nlinarith [hx1.1, hx1.2, sq_nonneg b, mul_nonneg (sq_nonneg b) (show 0 ≤ 4 - (3 / 2 + a) ^ 2 by nlinarith [hx1.1, hx1.2])])
    (1 / 4) hs0 (by norm_num) (by norm_num) (by norm_num) (fun _ => True) 1 one_pos le_rfl lsK
    (by
      intro st q u _
      refine ⟨trivial, 1, le_rfl, le_rfl, ?_⟩
      rw [one_smul]
      rfl)
    (by show ((1 - 1 / 2 : ℝ) ^ 3 * (1 / 4)) ^ 2 ≤ 1 / 4 * (1 / 10 * (1 / 10)); norm_num)
    (by show (16 : ℝ) * (1 / 10 ^ 12) ≤ 1 / 4 * (1 / 10 * (1 / 10)); norm_num) J0 false dq u () trivial
  refine ⟨h1, C115_satisfied s_built lawful rfl (1 / 10) (by norm_num) rfl rfl ?_ _ h2 x h3 h4⟩
  intro d hd q hq
  rw [data_eq, BsR.s_data] at hd
  obtain rfl := List.mem_singleton.1 hd
  have h6 : [q 1] = [q 0 ^ 2 + 0] := hq
  have h7 : q 1 = q 0 ^ 2 := by simpa using h6
  show (q 1 - q 0 ^ 2 - 0) * (q 1 - q 0 ^ 2 - 0) + 0 = 0
  rw [h7]; ring

end Hpp
