import Verif.BySub.NewtonEcs
import Verif.BySub.Props

/-!
# A case that meets the hypotheses of `C95_solver`
-/

namespace Hpp.BsR

open Matrix Hpp

/-- `q 1 - q 0 ²` -/
noncomputable def fE : Fn ℝ Nat where
  key := 10
  inputSize := 2
  inputDer := 2
  spaceId := 1
  space := vectorSpace ℝ 1
  value q := [q 1 - q 0 ^ 2]
  jac _ := fun _ _ => 0
  activeQ := [true, true]
  active := [true, true]

noncomputable def iE : Impl ℝ Nat := (Impl.create fE [.equalToZero] []).get rfl

theorem iE_built : Impl.Built fE [] [.equalToZero] iE := .create _ _ (Option.some_get _).symm

/-- `q 1 = q 0 ² + rhs` -/
noncomputable def part : EPart ℝ :=
  ⟨7, [⟨0, 1⟩], [⟨1, 1⟩], [⟨0, 1⟩], [⟨1, 1⟩], fun x r => [x.getD 0 0 ^ 2 + r.getD 0 0],
    fun x _ _ _ _ => 2 * x.getD 0 0⟩

noncomputable def cE : BCon ℝ Nat := ⟨iE, some part⟩

def E (sp : Space ℝ) (v : List ℝ) : Prop := v.length = sp.nq

noncomputable def s0 : BS ℝ Nat := BS.init ℝ Nat 2 2 1
noncomputable def s : BS ℝ Nat := (s0.add 20 cE 0).1

theorem s_built : BS.Built E 2 2 [(cE, 0, true)] s :=
  .add (h := []) (s := s0) (c := cE) (p := 0) (fuel := 20) (junk := []) (.init 1) ⟨_, _, _, iE_built⟩ (Prod.ext rfl rfl)

theorem s_expl : explOf [(cE, 0, true)] = [part.econ iE] := rfl
theorem s_data : s.ex.data = [EData.new (part.econ iE) []] := rfl
theorem s_cons : s.ex.cons = [part.econ iE] := rfl
theorem s_free : indices s.hi.free.segs = [0] := rfl
theorem s_synced : s.Synced := rfl

theorem s_wf : ∀ c ∈ explOf [(cE, 0, true)], WellFormed 2 2 c := by
  rw [s_expl]
  intro c hc
  obtain rfl := List.mem_singleton.1 hc
  refine ⟨⟨⟨1, 1⟩, rfl, by decide⟩, ⟨⟨1, 1⟩, rfl, by decide⟩, ?_, ?_⟩ <;> intro i h <;>
    simp [Reads, ReadsV, EPart.econ, part, Seg.Has] at h <;> omega

theorem s_vec : ∀ c ∈ explOf [(cE, 0, true)], c.inV = c.inQ ∧ c.outV = c.outQ := by
  rw [s_expl]
  intro c hc
  obtain rfl := List.mem_singleton.1 hc
  exact ⟨rfl, rfl⟩

theorem s_sorted : ∀ c ∈ explOf [(cE, 0, true)], c.inQ.Pairwise lexLe := by
  rw [s_expl]
  intro c hc
  obtain rfl := List.mem_singleton.1 hc
  exact List.pairwise_singleton _ _

theorem s_len : ∀ d ∈ s.ex.data, d.OutLen := by
  rw [s_data]
  intro d hd
  obtain rfl := List.mem_singleton.1 hd
  intro x
  rfl

theorem s_deriv (q : Nat → ℝ) : ∀ d ∈ s.ex.data, d.IsDeriv q (d.c.jac (rview q d.c.inQ) d.fval d.rhs) := by
  rw [s_data]
  intro d hd
  obtain rfl := List.mem_singleton.1 hd
  intro u t0 w h0 hu m hm
  have hu0 := hu 0 (by simp [Reads, EData.new, EPart.econ, part, Seg.Has])
  have e0 := h0 0 (by simp [Reads, EData.new, EPart.econ, part, Seg.Has])
  have hm1 : m < 1 := hm
  interval_cases m
  have h1 := (hu0.pow 2).add_const (((EData.new (part.econ iE) []).rhs).getD 0 0)
  have e : ∑ p ∈ Finset.range 1, (2 * q 0) * w ([0].getD p 0) = 2 * u t0 0 ^ (2 - 1) * w 0 := by
    simp [e0]
  exact h1.congr_deriv (by rw [Nat.cast_ofNat]; exact e.symm)

/-- The constraint `q 1 = 2`, with its Jacobian. -/
noncomputable def lev : NLevel (Nat → ℝ) ℝ (indices s.hi.free.segs).length :=
  bsLevel s [⟨0, 1⟩] (fun q _ => q 1 - 2) (fun _ _ k => if k = 1 then 1 else 0) 1 fun _ => 0

theorem lev_curve : CurveDeriv 2 [⟨0, 1⟩] (fun q _ => q 1 - 2) (fun _ _ k => if k = 1 then 1 else 0) := by
  intro u t0 w hu i _
  refine ((hu 1 (by norm_num)).sub_const 2).congr_deriv ?_
  simp [Finset.sum_range_succ]

theorem sub_zero' (q : Nat → ℝ) (x : Fin (indices s.hi.free.segs).length → ℝ) :
    bsSub s q x 0 = q 0 + x ⟨0, Nat.one_pos⟩ ∧ bsSub s q x 1 = (q 0 + x ⟨0, Nat.one_pos⟩) ^ 2 := by
  have h2 := s_built.parts.2.1
  obtain ⟨h3, h4⟩ := (C13_solve h2 (by rw [s_cons, ← s_expl]; exact s_wf)
    (by rw [s_cons, ← s_expl]; exact coherent_of_vec s_vec) s_len (bsMove s q x) _).1 rfl
  have e0 : bsSub s q x 0 = q 0 + x ⟨0, Nat.one_pos⟩ := by
    have := h4 0 (by
      rw [s_cons]
      intro c hc
      obtain rfl := List.mem_singleton.1 hc
      simp [Writes, EPart.econ, part, Seg.Has])
    show s.ex.solve (bsMove s q x) 0 = _
    rw [this]
    exact congrArg (q 0 + ·) (expand_mem (bsFree s) (bsFree_inj s_built s_synced) x _ ⟨0, Nat.one_pos⟩)
  refine ⟨e0, ?_⟩
  have h5 := h3 (EData.new (part.econ iE) []) (by rw [s_data]; simp)
  have h6 : [bsSub s q x 1] = [bsSub s q x 0 ^ 2 + 0] := h5
  rw [← e0]
  simpa using h6

theorem jac10 (p : Nat → ℝ) : s.ex.jacobian p 1 0 = 2 * p 0 := by
  have h2 := s_built.parts.2.1
  obtain ⟨j1, -, j3⟩ := C15_jacobian h2 (by rw [s_cons, ← s_expl]; exact s_wf)
    (by rw [s_cons, ← s_expl]; exact coherent_of_vec s_vec)
    (by rw [s_cons, ← s_expl]; intro c hc; rw [(s_vec c hc).1]; exact s_sorted c hc) p
  have h0 : s.ex.jacobian p 0 0 = 1 := by
    rw [j1 0 0 (by
      rw [s_cons]
      intro c hc
      obtain rfl := List.mem_singleton.1 hc
      simp [WritesV, EPart.econ, part, Seg.Has])]
    simp
  have h1 : s.ex.jacobian p 1 0 = ∑ k ∈ Finset.range 1, (2 * p 0) * s.ex.jacobian p ([0].getD k 0) 0 :=
    j3 (EData.new (part.econ iE) []) (by rw [s_data]; simp) 0 1 0 rfl
  rw [h1]
  simp [h0]

theorem lev_J (p : Nat → ℝ) (v : Fin (indices s.hi.free.segs).length → ℝ) :
    lev.J p *ᵥ v = fun _ => 2 * p 0 * v ⟨0, Nat.one_pos⟩ := by
  funext r
  have hr : r = ⟨0, Nat.one_pos⟩ := Subsingleton.elim (α := Fin 1) _ _
  have e : s.updateJ p [⟨0, 1⟩] (fun _ k => if k = 1 then 1 else 0) (s.reducedJ0 [⟨0, 1⟩] fun _ k => if k = 1 then 1 else 0)
    = some fun r c => (s.reducedJ0 [⟨0, 1⟩] fun _ k => if k = 1 then (1 : ℝ) else 0) r c +
      ([1].map fun v => (if v = 1 then (1 : ℝ) else 0) * s.ex.jacobian p v ([0].getD c 0)).sum := rfl
  have hJ : lev.J p r ⟨0, Nat.one_pos⟩ = 2 * p 0 := by
    show (s.updateJ p [⟨0, 1⟩] (fun _ k => if k = 1 then 1 else 0)
      (s.reducedJ0 [⟨0, 1⟩] fun _ k => if k = 1 then 1 else 0)).getD (fun _ _ => 0) r 0 = _
    rw [e]
    have e2 : (s.reducedJ0 [⟨0, 1⟩] fun _ k => if k = 1 then (1 : ℝ) else 0) r 0 = 0 := rfl
    simp [e2, jac10]
  have key : ∀ w : Fin 1 → ℝ, ∑ c : Fin 1, w c * v c = w 0 * v ⟨0, Nat.one_pos⟩ := fun w => by
    rw [Fin.sum_univ_one]; rfl
  exact (key fun c => lev.J p r c).trans (by rw [← hJ]; rfl)

theorem lev_err (p : Nat → ℝ) : lev.err p = fun _ => p 1 - 2 := rfl

theorem nrm_const (x : ℝ) : nrm (m := 1) (fun _ => x) = |x| := by
  unfold nrm
  rw [show (fun _ => x : Fin 1 → ℝ) ⬝ᵥ (fun _ => x) = x * x by simp [dotProduct], Real.sqrt_mul_self_eq_abs]

theorem nrm_single (v : Fin (indices s.hi.free.segs).length → ℝ) : nrm v = |v ⟨0, Nat.one_pos⟩| := by
  have : v = fun _ => v ⟨0, Nat.one_pos⟩ := funext fun i => congrArg v (Subsingleton.elim (α := Fin 1) i ⟨0, Nat.one_pos⟩)
  conv_lhs => rw [this]
  exact nrm_const _

theorem lev_nErr (p : Nat → ℝ) : nErr [lev] p = |p 1 - 2| := by
  have h : lev.norms p = [lev.err p ⬝ᵥ lev.err p] := norms_one lev rfl p
  have e : lev.err p ⬝ᵥ lev.err p = (p 1 - 2) ^ 2 := by
    show (fun _ => p 1 - 2 : Fin 1 → ℝ) ⬝ᵥ (fun _ => p 1 - 2) = _
    simp [dotProduct, sq]
  unfold nErr
  simp only [nSqNorm, Bool.false_eq_true, if_false, List.flatMap_cons, List.flatMap_nil, List.append_nil, h, e,
    List.foldl_cons, List.foldl_nil]
  rw [max_eq_right (sq_nonneg _), Real.sqrt_sq_eq_abs]

/-- Constant steps. -/
noncomputable def lsK (_ : Unit) (q : Nat → ℝ) (u : Fin (indices s.hi.free.segs).length → ℝ) :
    (Unit × LsOut (Nat → ℝ) (Fin (indices s.hi.free.segs).length → ℝ)) × Bool :=
  (((), ⟨s.ex.solve (bsMove s q u), u, true, 0⟩), true)

/-- The solver by substitution with the explicit constraint `q 1 = q 0 ²` and the implicit constraint `q 1 = 2`, from
`q 0 = 3/2`: `SUCCESS` after at most three iterations. -/
example (o : SvdOps ℝ) (ho : o.Exact) (hor : o.Ortho) :
    let r := bsSolve (bsNewtonOps o false false (1 / 100) [lev] (bsExpl s) lsK) (1 / 100) (1 / 10 ^ 12) 3
      (indices s.hi.free.segs).length false false (fun _ => 3 / 2) (0, 0, ())
    r.status = .success ∧ (∀ d ∈ s.ex.data, d.Holds r.arg) ∧ ∀ l ∈ [lev], ∀ k : Fin l.nc,
      (∑ i, if l.blk i = k then l.err r.arg i ^ 2 else 0) ≤ 1 / 100 := by
  have hx : ∀ x : Fin (indices s.hi.free.segs).length → ℝ, dist x 0 ≤ 1 / 2 → |x ⟨0, Nat.one_pos⟩| ≤ 1 / 2 := by
    intro x hx
    have := (dist_le_pi_dist x 0 ⟨0, Nat.one_pos⟩).trans hx
    rwa [Real.dist_eq, Pi.zero_apply, sub_zero] at this
  have hs0 : nErr [lev] (s.ex.solve fun _ => 3 / 2) = 1 / 4 := by
    have e := (C95_parametrises s_built s_synced s_wf (coherent_of_vec s_vec) s_len (fun _ => 3 / 2)).2.1
    have e' : s.ex.solve (fun _ => 3 / 2) = bsSub s (fun _ => 3 / 2) 0 := (Prod.mk.inj e).1
    rw [lev_nErr, e', (sub_zero' _ _).2]
    simp only [Pi.zero_apply]
    rw [abs_of_pos] <;> norm_num
  refine C95_solver s_built s_synced s_wf s_vec s_sorted s_len s_deriv o ho hor (1 / 100) (1 / 10 ^ 12) (by norm_num) [lev]
    (.inl (by simp)) ?_ (fun _ => 3 / 2) (1 / 2) 2 (1 / 2) 16 (by norm_num) (by norm_num) (by norm_num) ?_ ?_ ?_
    (by rw [hs0]; norm_num) (by rw [hs0]; norm_num) (fun _ => True) 1 one_pos le_rfl lsK ?_ 3 (by rw [hs0]; norm_num)
    (by norm_num) false false rfl 0 0 () trivial
  · intro l hl
    obtain rfl := List.mem_singleton.1 hl
    exact ⟨_, _, _, _, _, rfl, lev_curve⟩
  · intro l hl x x' _ _ v
    obtain rfl := List.mem_singleton.1 hl
    rw [sub_mulVec, lev_J, lev_J, (sub_zero' _ _).1, (sub_zero' _ _).1, nrm_single, nrm_single]
    have key : ∀ a b c : ℝ, nrm (m := 1) ((fun _ => 2 * (3 / 2 + a) * c) - fun _ => 2 * (3 / 2 + b) * c) ≤
        2 * |a - b| * |c| := fun a b c => by
      rw [show ((fun _ => 2 * (3 / 2 + a) * c) - fun _ => 2 * (3 / 2 + b) * c : Fin 1 → ℝ) =
        fun _ => 2 * (a - b) * c by funext i; simp only [Pi.sub_apply]; ring, nrm_const, abs_mul, abs_mul,
        abs_two]
    exact key _ _ _
  · intro x hxx
    have hx1 := abs_le.1 (hx x hxx)
    set a := x ⟨0, Nat.one_pos⟩
    have ha : 0 < 3 / 2 + a := by linarith [hx1.1]
    refine ⟨fun _ => -((3 / 2 + a) ^ 2 - 2) / (2 * (3 / 2 + a)), ?_, ?_⟩
    · intro l hl
      obtain rfl := List.mem_singleton.1 hl
      rw [lev_J, lev_err, (sub_zero' _ _).1, (sub_zero' _ _).2]
      funext r
      show 2 * (3 / 2 + a) * (-((3 / 2 + a) ^ 2 - 2) / (2 * (3 / 2 + a))) = -((3 / 2 + a) ^ 2 - 2)
      rw [mul_div_cancel₀]
      linarith
    · rw [nrm_single, lev_nErr, (sub_zero' _ _).2]
      show |-((3 / 2 + a) ^ 2 - 2) / (2 * (3 / 2 + a))| ≤ 1 / 2 * |(3 / 2 + a) ^ 2 - 2|
      rw [abs_div, abs_neg, abs_of_pos (show 0 < 2 * (3 / 2 + a) by linarith), div_le_iff₀ (by linarith)]
      have := abs_nonneg ((3 / 2 + a) ^ 2 - 2)
      nlinarith [hx1.1]
  · intro l hl x hxx v
    obtain rfl := List.mem_singleton.1 hl
    have hx1 := abs_le.1 (hx x hxx)
    rw [lev_J, (sub_zero' _ _).1, ← nrm_sq v, nrm_single, sq_abs]
    set a := x ⟨0, Nat.one_pos⟩
    set b := v ⟨0, Nat.one_pos⟩
    have key : (fun _ => 2 * (3 / 2 + a) * b : Fin 1 → ℝ) ⬝ᵥ (fun _ => 2 * (3 / 2 + a) * b) ≤ 16 * b ^ 2 := by
      rw [show (fun _ => 2 * (3 / 2 + a) * b : Fin 1 → ℝ) ⬝ᵥ (fun _ => 2 * (3 / 2 + a) * b) =
        (2 * (3 / 2 + a)) ^ 2 * b ^ 2 by simp [dotProduct]; ring]
      refine mul_le_mul_of_nonneg_right ?_ (sq_nonneg b)
      nlinarith [hx1.1, hx1.2]
    exact key
  · intro st q u _
    refine ⟨trivial, 1, le_rfl, le_rfl, ?_⟩
    rw [one_smul]
    rfl

/-- Such decompositions exist. -/
example : ∃ o : SvdOps ℝ, o.Exact ∧ o.Ortho := exists_exact_ortho

end Hpp.BsR
