import Verif.Explicit.ImplicitFn
import Mathlib.Algebra.BigOperators.Fin

namespace Hpp.Explicit

open Matrix Hpp.Sym Hpp.Pose

theorem indices_single (a h : Nat) : indices [⟨a, h⟩] = (List.range h).map (a + ·) := by
  simp [indices, List.range'_eq_map_range]

theorem split_within {l : Segs} {N : Nat} (h : Within l N) : ∀ n, Within (split l n).1 N ∧ Within (split l n).2 N := by
  induction l with
  | nil => intro n; simp [split, Within]
  | cons s l ih =>
    intro n
    have hs := h s (by simp)
    have hl : Within l N := fun x hx => h x (by simp [hx])
    unfold split
    split
    · refine ⟨fun x hx => ?_, fun x hx => ?_⟩
      · simp at hx; subst hx; simp; omega
      · simp at hx
        rcases hx with rfl | hx
        · simp; omega
        · exact hl x hx
    · split
      · refine ⟨fun x hx => ?_, hl⟩
        simp at hx; subst hx; exact hs
      · refine ⟨fun x hx => ?_, (ih hl _).2⟩
        simp at hx
        rcases hx with rfl | hx
        · exact hs
        · exact (ih hl _).1 x hx

theorem extract_within {l r : Segs} {N s n : Nat} (h : Within l N) (hr : extract? l s n = some r) : Within r N := by
  have hend : ∀ (l : Segs) (n : Nat) (r : Segs), Within l N → extractEnd l n = some r → Within r N := by
    intro l
    induction l with
    | nil => intro n r _ h; simp [extractEnd] at h
    | cons s l ih =>
      intro n r h hr
      have hs := h s (by simp)
      have hl : Within l N := fun x hx => h x (by simp [hx])
      unfold extractEnd at hr
      split at hr
      · simp at hr; subst hr
        intro x hx; simp at hx; subst hx; simp; omega
      · cases he : extractEnd l (n - s.len) with
        | none => simp [he] at hr
        | some r' =>
          simp [he] at hr; subst hr
          intro x hx
          rcases List.mem_cons.1 hx with rfl | hx
          · exact hs
          · exact ih _ _ hl he x hx
  induction l generalizing s with
  | nil => simp [extract?] at hr
  | cons x l ih =>
    have hs := h x (by simp)
    have hl : Within l N := fun y hy => h y (by simp [hy])
    unfold extract? at hr
    split at hr
    · split at hr
      · simp at hr; subst hr
        intro y hy; simp at hy; subst hy; simp; omega
      · cases he : extractEnd l (n - (x.len - s)) with
        | none => simp [he] at hr
        | some r' =>
          simp [he] at hr; subst hr
          intro y hy
          rcases List.mem_cons.1 hy with rfl | hy
          · simp; omega
          · exact hend _ _ _ hl he y hy
    · exact ih hl hr

variable {α : Type}

/-- Writing in consecutive rows. -/
theorem writeRows {a h : Nat} {cols : Segs} {m src : Mat α} (hr : a + h ≤ m.rows) (hc : Within cols m.cols)
    (nd : (indices cols).Nodup) (sr : src.rows = h) (sc : src.cols = (indices cols).length) :
    ∃ r, writeView (Blocks.ofSegs [⟨a, h⟩]) (Blocks.ofSegs cols) m src = some r ∧ r.rows = m.rows ∧ r.cols = m.cols ∧
      (∀ k l j, k < h → (indices cols)[l]? = some j → r.coeff (a + k) j = src.coeff k l) ∧
      (∀ i j, ¬ (a ≤ i ∧ i < a + h ∧ j ∈ indices cols) → r.coeff i j = m.coeff i j) := by
  obtain ⟨r, h1, h2, h3, h4, h5⟩ := C07_write (Blocks.ofSegs [⟨a, h⟩]) (Blocks.ofSegs cols) m src
    (by simp [Blocks.ofSegs, sr]) (by simp [Blocks.ofSegs, sc])
    (by simpa [Blocks.ofSegs, Within] using hr) (by simpa [Blocks.ofSegs] using hc)
    (by
      simp only [Blocks.ofSegs, indices_single]
      exact List.nodup_range.map (by intro x y h; simpa using h))
    (by simpa [Blocks.ofSegs] using nd)
  refine ⟨r, h1, h2, h3, fun k l j hk hj => ?_, fun i j hij => ?_⟩
  · exact h4 k l _ _ (by simp [Blocks.ofSegs, hk]) (by simpa [Blocks.ofSegs] using hj)
  · refine h5 i j fun hh => hij ?_
    simp only [Blocks.ofSegs, indices_single, List.mem_map, List.mem_range] at hh
    obtain ⟨⟨x, hx, rfl⟩, hj⟩ := hh
    exact ⟨by omega, by omega, hj⟩

/-- Writing rows that are not in the matrix. -/
theorem writeRows_none {a h : Nat} {cols : Segs} {m src : Mat α} (hr : m.rows < a + h) (hc : cols ≠ []) :
    writeView (Blocks.ofSegs [⟨a, h⟩]) (Blocks.ofSegs cols) m src = none := by
  cases cols with
  | nil => exact absurd rfl hc
  | cons c cols =>
    simp only [writeView, Blocks.ofSegs, visit_eq, Option.bind_eq_bind, Option.bind_some]
    simp only [nested, withOff, List.flatMap_cons, List.map_cons, List.map_nil, List.cons_append, writeBlocks]
    cases src.getBlock 0 0 h c.len with
    | none => simp
    | some v =>
      simp only [Option.bind_eq_bind, Option.bind_some, Mat.setBlock]
      rw [if_neg (by omega)]
      simp

variable [CommRing α]

/-- The implicit function has one factor and its indices are those of distinct variables. -/
structure ImplicitFn.OneFactor (F : ImplicitFn α) (k : LieKind) : Prop where
  kinds : F.kinds = [k]
  out : cardinal F.outVel = k.nv
  wout : Within F.outVel F.nv
  win : Within F.inVel F.nv
  nodup : (indices F.outVel ++ indices F.inVel).Nodup

/-- Contents of the Jacobian: block of the output columns, block of the input columns, zero elsewhere. -/
structure ImplicitFn.Filled (F : ImplicitFn α) (nv : Nat) (J : Mat α) (outB inB : Nat → Nat → α) : Prop where
  rows : J.rows = nv
  cols : J.cols = F.nv
  out : ∀ k l j, k < nv → (indices F.outVel)[l]? = some j → J.coeff k j = outB k l
  inp : ∀ k l j, k < nv → (indices F.inVel)[l]? = some j → J.coeff k j = inB k l
  zero : ∀ k j, k < nv → j ∉ indices F.outVel → j ∉ indices F.inVel → J.coeff k j = 0

/-- Same thing for a matrix in which only columns of the factor may be nonzero. -/
structure Fill (b : JBlocks) (N nv : Nat) (J : Mat α) (outB inB : Nat → Nat → α) : Prop where
  rows : J.rows = nv
  cols : J.cols = N
  out : ∀ k l j, k < nv → (indices b.outCols)[l]? = some j → J.coeff k j = outB k l
  inp : ∀ k l j, k < nv → (indices b.inCols)[l]? = some j → J.coeff k j = inB k l
  zero : ∀ k j, k < nv → j ∉ indices b.outCols → j ∉ indices b.inCols → J.coeff k j = 0

/-- Conditions on the blocks of the factor -/
structure BlkOk (b : JBlocks) (N nv : Nat) : Prop where
  rows : b.rows = [⟨0, nv⟩]
  out : (indices b.outCols).length = nv
  wout : Within b.outCols N
  win : Within b.inCols N
  nodup : (indices b.outCols ++ indices b.inCols).Nodup

theorem visitOther_fill {b : JBlocks} {N nv : Nat} (h : BlkOk b N nv) (Jf : Nat → Nat → α) :
    ∃ r, visitOther Jf nv b ⟨nv, N, fun _ _ => 0⟩ = some r ∧
      Fill b N nv r (fun i j => if i = j then 1 else 0) (fun i j => -Jf i j) := by
  obtain ⟨nd1, nd2, nd3⟩ := List.nodup_append'.1 h.nodup
  obtain ⟨m1, e1, r1, c1, w1, f1⟩ := writeRows (a := 0) (h := nv) (cols := b.outCols)
    (m := ⟨nv, N, fun _ _ => (0 : α)⟩) (src := ⟨cardinal b.rows, cardinal b.outCols, fun i j => if i = j then (1 : α) else 0⟩)
    (by simp) h.wout nd1 (by simp [h.rows]) (by simp [cardinal_eq_length])
  obtain ⟨m2, e2, r2, c2, w2, f2⟩ := writeRows (a := 0) (h := nv) (cols := b.inCols)
    (m := m1) (src := ⟨nv, cardinal b.inCols, fun i j => -Jf i j⟩)
    (by simp [r1]) (by rw [c1]; exact h.win) nd2 (by simp) (by simp [cardinal_eq_length])
  refine ⟨m2, ?_, ⟨by simp [r2, r1], by simp [c2, c1], ?_, ?_, ?_⟩⟩
  · rw [← h.rows] at e1 e2
    simp only [visitOther, e1, Option.bind_eq_bind, Option.bind_some, e2]
  · intro k l j hk hj
    rw [f2 k j fun hh => nd3 (List.mem_of_getElem? hj) hh.2.2]
    simpa using w1 k l j hk hj
  · intro k l j hk hj
    simpa using w2 k l j hk hj
  · intro k j _ ho hi
    rw [f2 k j fun hh => hi hh.2.2, f1 k j fun hh => ho hh.2.2]

theorem visitSE3_fill (ops : LieOps α) (qOut fq : List α) {b : JBlocks} {N : Nat} (h : BlkOk b N 6) (Jf : Nat → Nat → α) :
    ∃ r, visitSE3 ops qOut fq Jf b ⟨6, N, fun _ _ => 0⟩ = some r ∧
      Fill b N 6 r (fun i j => ops.Jlog6 ((ops.pose fq).inv.mul (ops.pose qOut)) (six i) (six j))
        (fun i j => if h : j < cardinal b.inCols then
          (ops.Jlog6 ((ops.pose fq).inv.mul (ops.pose qOut)) * inJSE3 ops qOut fq Jf (cardinal b.inCols)) (six i) ⟨j, h⟩ else 0) := by
  obtain ⟨nd1, nd2, nd3⟩ := List.nodup_append'.1 h.nodup
  obtain ⟨m1, e1, r1, c1, w1, f1⟩ := writeRows (a := 0) (h := 6) (cols := b.outCols)
    (m := ⟨6, N, fun _ _ => (0 : α)⟩)
    (src := ⟨6, 6, fun i j => ops.Jlog6 ((ops.pose fq).inv.mul (ops.pose qOut)) (six i) (six j)⟩)
    (by simp) h.wout nd1 (by simp) (by simp [h.out])
  obtain ⟨m2, e2, r2, c2, w2, f2⟩ := writeRows (a := 0) (h := 6) (cols := b.inCols)
    (m := m1) (src := ⟨6, cardinal b.inCols, fun i j => if h : j < cardinal b.inCols then
          (ops.Jlog6 ((ops.pose fq).inv.mul (ops.pose qOut)) * inJSE3 ops qOut fq Jf (cardinal b.inCols)) (six i) ⟨j, h⟩ else 0⟩)
    (by simp [r1]) (by rw [c1]; exact h.win) nd2 (by simp) (by simp [cardinal_eq_length])
  refine ⟨m2, ?_, ⟨by simp [r2, r1], by simp [c2, c1], ?_, ?_, ?_⟩⟩
  · rw [← h.rows] at e1 e2
    simp only [visitSE3, e1, Option.bind_eq_bind, Option.bind_some, e2]
  · intro k l j hk hj
    rw [f2 k j fun hh => nd3 (List.mem_of_getElem? hj) hh.2.2]
    simpa using w1 k l j hk hj
  · intro k l j hk hj
    simpa using w2 k l j hk hj
  · intro k j _ ho hi
    rw [f2 k j fun hh => hi hh.2.2, f1 k j fun hh => ho hh.2.2]

omit [CommRing α] in
/-- `writeSub` in a row interval starting at 0. -/
theorem writeSub_spec {nv : Nat} {cols : Segs} {i j ni nj : Nat} {m src : Mat α} (hi : i < nv) (hni : i + ni ≤ nv)
    (hj : j < (indices cols).length) (hnj : j + nj ≤ (indices cols).length) (hr : m.rows = nv)
    (hc : Within cols m.cols) (nd : (indices cols).Nodup) (sr : src.rows = ni) (sc : src.cols = nj) :
    ∃ r, writeSub ([⟨0, nv⟩], cols) i j ni nj m src = some r ∧ r.rows = m.rows ∧ r.cols = m.cols ∧
      (∀ k l x, k < ni → l < nj → (indices cols)[j + l]? = some x → r.coeff (i + k) x = src.coeff k l) ∧
      (∀ k x, ¬ (i ≤ k ∧ k < i + ni ∧ ∃ l, l < nj ∧ (indices cols)[j + l]? = some x) → r.coeff k x = m.coeff k x) := by
  obtain ⟨c, ec, ic⟩ := (extract?_spec cols j nj).1 (by rw [cardinal_eq_length]; exact hj)
    (by rw [cardinal_eq_length]; exact hnj)
  have er : extract? [⟨0, nv⟩] i ni = some [⟨i, ni⟩] := by
    have : ni ≤ nv - i := by omega
    simp [extract?, hi, this]
  have hlen : (indices c).length = nj := by rw [ic]; simp; omega
  obtain ⟨r, e, h1, h2, h3, h4⟩ := writeRows (a := i) (h := ni) (cols := c) (m := m) (src := src) (by omega)
    (extract_within hc ec) (by rw [ic]; exact (nd.drop).take) sr (by rw [hlen, sc])
  refine ⟨r, by simp [writeSub, er, ec, e], h1, h2, fun k l x hk hl hx => ?_, fun k x hn => ?_⟩
  · refine h3 k l x hk ?_
    rw [ic, List.getElem?_take]
    simp [hl, hx]
  · refine h4 k x fun hh => hn ⟨hh.1, hh.2.1, ?_⟩
    obtain ⟨l, hl⟩ := List.mem_iff_getElem?.1 hh.2.2
    rw [ic, List.getElem?_take] at hl
    by_cases h' : l < nj
    · simp [h'] at hl
      exact ⟨l, h', hl⟩
    · simp [h'] at hl

/-- Blocks of the Jacobian with respect to the output and input variables, `R3xSO3` -/
def outR3SO3 (ops : LieOps α) (qOut fq : List α) (i j : Nat) : α :=
  if i < 3 then (if i = j then 1 else 0)
  else if j < 3 then 0 else ops.Jlog3 ((ops.pose fq).Rᵀ * (ops.pose qOut).R) (Fin.ofNat 3 (i - 3)) (Fin.ofNat 3 (j - 3))

def inR3SO3 (ops : LieOps α) (qOut fq : List α) (Jf : Nat → Nat → α) (n i j : Nat) : α :=
  if h : j < n then
    if i < 3 then -Jf i j
    else (-ops.Jlog3 ((ops.pose fq).Rᵀ * (ops.pose qOut).R) * (ops.pose qOut).Rᵀ * (ops.pose fq).R * bottom3 Jf n)
      (Fin.ofNat 3 (i - 3)) ⟨j, h⟩
  else 0

theorem getElem?_inj {l : List Nat} (nd : l.Nodup) {a b x : Nat} (ha : l[a]? = some x) (hb : l[b]? = some x) : a = b := by
  have h1 := lt_of_getElem?_some ha
  have h2 := lt_of_getElem?_some hb
  rw [List.getElem?_eq_getElem h1] at ha
  rw [List.getElem?_eq_getElem h2] at hb
  exact (nd.getElem_inj_iff).1 (by simpa using ha.trans hb.symm)

theorem visitR3SO3_fill (ops : LieOps α) (qOut fq : List α) {b : JBlocks} {N : Nat} (h : BlkOk b N 6)
    (hin : 0 < cardinal b.inCols) (Jf : Nat → Nat → α) :
    ∃ r, visitR3SO3 ops qOut fq Jf b ⟨6, N, fun _ _ => 0⟩ = some r ∧
      Fill b N 6 r (outR3SO3 ops qOut fq) (inR3SO3 ops qOut fq Jf (cardinal b.inCols)) := by
  obtain ⟨nd1, nd2, nd3⟩ := List.nodup_append'.1 h.nodup
  have ho := h.out
  have hcl := cardinal_eq_length b.inCols
  obtain ⟨m1, e1, r1, c1, w1, f1⟩ := writeSub_spec (nv := 6) (cols := b.outCols) (i := 0) (j := 0) (ni := 3) (nj := 3)
    (m := ⟨6, N, fun _ _ => (0 : α)⟩) (src := mat3 (1 : M3 α))
    (by omega) (by omega) (by omega) (by omega) rfl h.wout nd1 rfl rfl
  obtain ⟨m2, e2, r2, c2, w2, f2⟩ := writeSub_spec (nv := 6) (cols := b.inCols) (i := 0) (j := 0) (ni := 3)
    (nj := cardinal b.inCols) (m := m1) (src := mat3 (-top3 Jf (cardinal b.inCols)))
    (by omega) (by omega) (by omega) (by omega) r1 (by rw [c1]; exact h.win) nd2 rfl rfl
  obtain ⟨m3, e3, r3, c3, w3, f3⟩ := writeSub_spec (nv := 6) (cols := b.outCols) (i := 3) (j := 3) (ni := 3) (nj := 3)
    (m := m2) (src := mat3 (ops.Jlog3 ((ops.pose fq).Rᵀ * (ops.pose qOut).R)))
    (by omega) (by omega) (by omega) (by omega) (r2.trans r1) (by rw [c2, c1]; exact h.wout) nd1 rfl rfl
  obtain ⟨m4, e4, r4, c4, w4, f4⟩ := writeSub_spec (nv := 6) (cols := b.inCols) (i := 3) (j := 0) (ni := 3)
    (nj := cardinal b.inCols) (m := m3)
    (src := mat3 (-ops.Jlog3 ((ops.pose fq).Rᵀ * (ops.pose qOut).R) * (ops.pose qOut).Rᵀ * (ops.pose fq).R *
      bottom3 Jf (cardinal b.inCols)))
    (by omega) (by omega) (by omega) (by omega) (r3.trans (r2.trans r1)) (by rw [c3, c2, c1]; exact h.win) nd2 rfl rfl
  have hsub : ∀ {j l : Nat} {x : Nat}, (indices b.outCols)[j + l]? = some x → x ∈ indices b.outCols :=
    fun hx => List.mem_of_getElem? hx
  have hsub' : ∀ {j l : Nat} {x : Nat}, (indices b.inCols)[j + l]? = some x → x ∈ indices b.inCols :=
    fun hx => List.mem_of_getElem? hx
  refine ⟨m4, ?_, ⟨by rw [r4, r3, r2, r1], by rw [c4, c3, c2, c1], ?_, ?_, ?_⟩⟩
  · rw [← h.rows] at e1 e2 e3 e4
    simp only [visitR3SO3, e1, Option.bind_eq_bind, Option.bind_some, e2, e3, e4]
  · intro k l j hk hj
    have hl : l < 6 := by have := lt_of_getElem?_some hj; omega
    have hjo : j ∈ indices b.outCols := List.mem_of_getElem? hj
    rw [f4 k j fun hh => nd3 hjo (hsub' hh.2.2.choose_spec.2)]
    by_cases hk3 : k < 3
    · rw [f3 k j fun hh => by omega, f2 k j fun hh => nd3 hjo (hsub' hh.2.2.choose_spec.2)]
      by_cases hl3 : l < 3
      · have := w1 k l j hk3 hl3 (by simpa using hj)
        rw [Nat.zero_add] at this
        rw [this]
        simp [mat3, hk3, hl3, outR3SO3, Matrix.one_apply]
      · rw [f1 k j fun hh => ?_]
        · have : k ≠ l := by omega
          simp [outR3SO3, hk3, this]
        · obtain ⟨-, -, l', hl', hx⟩ := hh
          have := getElem?_inj nd1 hx hj
          omega
    · by_cases hl3 : l < 3
      · rw [f3 k j fun hh => ?_, f2 k j fun hh => nd3 hjo (hsub' hh.2.2.choose_spec.2), f1 k j fun hh => by omega]
        · simp [outR3SO3, hk3, hl3]
        · obtain ⟨-, -, l', hl', hx⟩ := hh
          have := getElem?_inj nd1 hx hj
          omega
      · have := w3 (k - 3) (l - 3) j (by omega) (by omega) (by rw [show 3 + (l - 3) = l by omega]; exact hj)
        rw [show 3 + (k - 3) = k by omega] at this
        rw [this]
        have h1 : k - 3 < 3 := by omega
        have h2 : l - 3 < 3 := by omega
        simp [mat3, h1, h2, outR3SO3, hk3, hl3, Fin.ofNat, Nat.mod_eq_of_lt]
  · intro k l j hk hj
    have hl : l < cardinal b.inCols := by have := lt_of_getElem?_some hj; omega
    have hji : j ∈ indices b.inCols := List.mem_of_getElem? hj
    by_cases hk3 : k < 3
    · rw [f4 k j fun hh => by omega, f3 k j fun hh => by omega]
      have := w2 k l j hk3 hl (by simpa using hj)
      rw [Nat.zero_add] at this
      rw [this]
      simp [mat3, hk3, hl, inR3SO3, top3]
    · have := w4 (k - 3) l j (by omega) hl (by simpa using hj)
      rw [show 3 + (k - 3) = k by omega] at this
      rw [this]
      have h1 : k - 3 < 3 := by omega
      simp [mat3, h1, hl, inR3SO3, hk3, Fin.ofNat, Nat.mod_eq_of_lt]
  · intro k j _ ho hi
    rw [f4 k j fun hh => hi (hsub' hh.2.2.choose_spec.2), f3 k j fun hh => ho (hsub hh.2.2.choose_spec.2),
      f2 k j fun hh => hi (hsub' hh.2.2.choose_spec.2), f1 k j fun hh => ho (hsub hh.2.2.choose_spec.2)]

/-- One factor: the Jacobian is filled by the visitor. -/
theorem jacobian_one (ops : LieOps α) {F : ImplicitFn α} {k : LieKind} (h : F.OneFactor k) (q : Nat → α)
    (outB inB : Nat → Nat → α) (hlo : (rview q F.outConf).length = k.nq) (hlf : (F.f (rview q F.inConf)).length = k.nq)
    (hv : ∀ b : JBlocks, BlkOk b F.nv k.nv → b.inCols = F.inVel → ∃ r, jacVisit ops k (rview q F.outConf)
      (F.f (rview q F.inConf)) (F.Jf (rview q F.inConf)) b ⟨k.nv, F.nv, fun _ _ => 0⟩ = some r ∧
      Fill b F.nv k.nv r outB inB) :
    ∃ J, F.jacobian ops q = some J ∧ F.Filled k.nv J outB inB := by
  have hi := split_indices F.outVel k.nv
  have hlen : (indices F.outVel).length = k.nv := by rw [← cardinal_eq_length, h.out]
  have ho : indices (split F.outVel k.nv).1 = indices F.outVel := by
    rw [hi.1, List.take_of_length_le (by omega)]
  obtain ⟨r, e, hf⟩ := hv ⟨[⟨0, k.nv⟩], (split F.outVel k.nv).1, F.inVel⟩
    ⟨rfl, by rw [ho, hlen], (split_within h.wout _).1, h.win, by rw [ho]; exact h.nodup⟩ rfl
  refine ⟨putRows ⟨k.nv, F.nv, fun _ _ => 0⟩ r 0 k.nv, ?_, ⟨rfl, rfl, ?_, ?_, ?_⟩⟩
  · simp only [ImplicitFn.jacobian, h.kinds, jacobianBlocks, List.zip_cons_cons, List.zip_nil_left, jacobianLoop,
      List.drop_zero, List.map_cons, List.map_nil, List.sum_cons, List.sum_nil, Nat.add_zero, middleRows, Nat.zero_add,
      List.take_of_length_le hlo.le, List.take_of_length_le hlf.le, Option.bind_eq_bind]
    rw [e]
    rfl
  · intro a l j ha hj
    simp only [putRows, Nat.zero_le, true_and, Nat.zero_add, ha, if_true, Nat.sub_zero]
    exact hf.out a l j ha (by simpa only [ho] using hj)
  · intro a l j ha hj
    simp only [putRows, Nat.zero_le, true_and, Nat.zero_add, ha, if_true, Nat.sub_zero]
    exact hf.inp a l j ha hj
  · intro a j ha h1 h2
    simp only [putRows, Nat.zero_le, true_and, Nat.zero_add, ha, if_true, Nat.sub_zero]
    exact hf.zero a j ha (by simpa only [ho] using h1) h2

/-- Sum over the elements of a list. -/
theorem sum_getD {l : List Nat} (nd : l.Nodup) (g : Nat → α) :
    ∑ j ∈ l.toFinset, g j = ∑ i ∈ Finset.range l.length, g (l.getD i 0) := by
  rw [List.sum_toFinset g nd]
  clear nd
  induction l with
  | nil => simp
  | cons a l ih =>
    rw [List.length_cons, Finset.sum_range_succ']
    simp [ih, add_comm]

/-- Product of the Jacobian by a velocity. -/
theorem ImplicitFn.Filled.mul {F : ImplicitFn α} {nv : Nat} {J : Mat α} {outB inB : Nat → Nat → α}
    (h : F.Filled nv J outB inB) (wo : Within F.outVel F.nv) (wi : Within F.inVel F.nv)
    (nd : (indices F.outVel ++ indices F.inVel).Nodup) (qd : Nat → α) {k : Nat} (hk : k < nv) :
    ∑ j ∈ Finset.range J.cols, J.coeff k j * qd j
      = ∑ l ∈ Finset.range (indices F.outVel).length, outB k l * qd ((indices F.outVel).getD l 0)
        + ∑ l ∈ Finset.range (indices F.inVel).length, inB k l * qd ((indices F.inVel).getD l 0) := by
  obtain ⟨nd1, nd2, nd3⟩ := List.nodup_append'.1 nd
  have hlt : ∀ {l : Segs}, Within l F.nv → ∀ j ∈ indices l, j < F.nv := by
    intro l hw j hj
    simp only [indices, List.mem_flatMap] at hj
    obtain ⟨s, hs, hj⟩ := hj
    have := hw s hs
    simp [List.mem_range'] at hj
    omega
  rw [h.cols]
  have hsub : (indices F.outVel).toFinset ∪ (indices F.inVel).toFinset ⊆ Finset.range F.nv := by
    intro j hj
    simp only [Finset.mem_union, List.mem_toFinset] at hj
    rcases hj with hj | hj
    · simp [hlt wo j hj]
    · simp [hlt wi j hj]
  rw [← Finset.sum_subset hsub, Finset.sum_union, sum_getD nd1, sum_getD nd2]
  · congr 1
    · refine Finset.sum_congr rfl fun l hl => ?_
      have hl' := Finset.mem_range.1 hl
      rw [h.out k l _ hk (by rw [List.getElem?_eq_getElem hl']; simp [List.getD, hl'])]
    · refine Finset.sum_congr rfl fun l hl => ?_
      have hl' := Finset.mem_range.1 hl
      rw [h.inp k l _ hk (by rw [List.getElem?_eq_getElem hl']; simp [List.getD, hl'])]
  · rw [Finset.disjoint_left]
    intro j h1 h2
    exact nd3 (by simpa using h1) (by simpa using h2)
  · intro j _ hj
    simp only [Finset.mem_union, List.mem_toFinset, not_or] at hj
    rw [h.zero k j hk hj.1 hj.2, zero_mul]

end Hpp.Explicit
