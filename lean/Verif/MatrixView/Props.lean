import Verif.MatrixView.Lemmas

/-!
# Properties of views of matrices (C07, C67)

Specification vocabulary: `indices l` (Segments/Spec.lean) lists the indices designated by a list of
intervals in the order of their ranks.  A view of a matrix by `rows` and `cols` is the matrix whose
coefficient `(k, l)` is the coefficient `((indices rows)[k], (indices cols)[l])` of the viewed
matrix.
-/

namespace Hpp

/-- Which rank is stored in which block. -/
theorem covered_rank {rows cols : Segs} {k l : Nat} (hk : k < cardinal rows) (hl : l < cardinal cols) :
    ∃ b ∈ nested rows cols, b.ro ≤ k ∧ k < b.ro + b.rs ∧ b.co ≤ l ∧ l < b.co + b.cs := by
  obtain ⟨r, hr, h1, h2⟩ := withOff_cover 0 rows k (by omega) (by omega)
  obtain ⟨c, hc, h3, h4⟩ := withOff_cover 0 cols l (by omega) (by omega)
  exact ⟨_, mem_nested.2 ⟨c, hc, r, hr, rfl⟩, h1, h2, h3, h4⟩

theorem nested_within {rows cols : Segs} {n m : Nat} (hr : Within rows n) (hc : Within cols m) :
    ∀ b ∈ nested rows cols, b.ri + b.rs ≤ n ∧ b.ci + b.cs ≤ m := by
  intro b hb
  obtain ⟨c, hc', r, hr', rfl⟩ := mem_nested.1 hb
  exact ⟨hr _ (withOff_snd_mem _ _ _ hr'), hc _ (withOff_snd_mem _ _ _ hc')⟩

theorem nested_rank {rows cols : Segs} :
    ∀ b ∈ nested rows cols, b.ro + b.rs ≤ cardinal rows ∧ b.co + b.cs ≤ cardinal cols := by
  intro b hb
  obtain ⟨c, hc', r, hr', rfl⟩ := mem_nested.1 hb
  have h1 := withOff_le _ _ _ hc'
  have h2 := withOff_le _ _ _ hr'
  simp only at h1 h2 ⊢; omega

theorem nested_indices {rows cols : Segs} :
    ∀ b ∈ nested rows cols, ∀ s t, s < b.rs → t < b.cs →
      (indices rows)[b.ro + s]? = some (b.ri + s) ∧ (indices cols)[b.co + t]? = some (b.ci + t) := by
  intro b hb s t hs ht
  obtain ⟨c, hc', r, hr', rfl⟩ := mem_nested.1 hb
  exact ⟨rank_lt _ _ hr' _ hs, rank_lt _ _ hc' _ ht⟩

/-! ### C07: reading and writing through a view -/

/-- C07. Reading a view whose intervals fit in the matrix never leaves the matrix, yields a matrix
of the announced size, and coefficient `(k, l)` is the one the `k`-th row index and `l`-th column
index designate, whatever the destination contained before. -/
theorem C07_read {α : Type} (rows cols : Blocks) (src : Mat α) (junk : Nat → Nat → α)
    (hnr : rows.nb = (indices rows.segs).length) (hnc : cols.nb = (indices cols.segs).length)
    (hr : Within rows.segs src.rows) (hc : Within cols.segs src.cols) :
    ∃ r, readView rows cols src junk = some r ∧
      r.rows = (indices rows.segs).length ∧ r.cols = (indices cols.segs).length ∧
      ∀ k l i j, (indices rows.segs)[k]? = some i → (indices cols.segs)[l]? = some j →
        r.coeff k l = src.coeff i j := by
  obtain ⟨r, h1, h2, h3, h4, -⟩ := readBlocks_spec src (nested rows.segs cols.segs)
    ⟨rows.nb, cols.nb, junk⟩
    (fun k l => src.coeff ((indices rows.segs).getD k 0) ((indices cols.segs).getD l 0))
    (nested_within hr hc)
    (by
      intro b hb
      have := nested_rank b hb
      rw [cardinal_eq_length, cardinal_eq_length] at this
      simp only; omega)
    (by
      intro b hb s t hs ht
      obtain ⟨e1, e2⟩ := nested_indices b hb s t hs ht
      simp [List.getD, e1, e2])
  refine ⟨r, by simp [readView, visit_eq, h1], by simpa [hnr] using h2, by simpa [hnc] using h3, ?_⟩
  intro k l i j hi hj
  rw [h4 k l (covered_rank (by rw [cardinal_eq_length]; exact lt_of_getElem?_some hi)
    (by rw [cardinal_eq_length]; exact lt_of_getElem?_some hj))]
  simp [List.getD, hi, hj]

example : ∃ r : Mat Nat, readView ⟨[⟨3, 1⟩, ⟨0, 2⟩], 3⟩ ⟨[⟨1, 2⟩], 2⟩ ⟨4, 4, fun i j => 10 * i + j⟩
    (fun _ _ => 99) = some r ∧ r.coeff 0 1 = 32 ∧ r.coeff 2 0 = 11 := by
  obtain ⟨r, h, -, -, hc⟩ := C07_read ⟨[⟨3, 1⟩, ⟨0, 2⟩], 3⟩ ⟨[⟨1, 2⟩], 2⟩
    (⟨4, 4, fun i j => 10 * i + j⟩ : Mat Nat) (fun _ _ => 99) (by decide) (by decide)
    (by simp [Within]) (by simp [Within])
  exact ⟨r, h, by rw [hc 0 1 3 2 (by decide) (by decide)],
    by rw [hc 2 0 1 1 (by decide) (by decide)]⟩

/-- C07. Writing a matrix into a view without repeated index never leaves the matrix, stores
coefficient `(k, l)` at the `k`-th row index and `l`-th column index, and leaves every other
coefficient of the matrix unchanged. -/
theorem C07_write {α : Type} (rows cols : Blocks) (dst src : Mat α)
    (hsr : src.rows = (indices rows.segs).length) (hsc : src.cols = (indices cols.segs).length)
    (hr : Within rows.segs dst.rows) (hc : Within cols.segs dst.cols)
    (ndr : (indices rows.segs).Nodup) (ndc : (indices cols.segs).Nodup) :
    ∃ r, writeView rows cols dst src = some r ∧ r.rows = dst.rows ∧ r.cols = dst.cols ∧
      (∀ k l i j, (indices rows.segs)[k]? = some i → (indices cols.segs)[l]? = some j →
        r.coeff i j = src.coeff k l) ∧
      (∀ i j, ¬ (i ∈ indices rows.segs ∧ j ∈ indices cols.segs) → r.coeff i j = dst.coeff i j) := by
  have idx : ∀ (L : List Nat), L.Nodup → ∀ k i, L[k]? = some i → L.idxOf i = k := by
    intro L hL k i h
    have hk := lt_of_getElem?_some h
    rw [List.getElem?_eq_getElem hk] at h
    have h' : L[k] = i := by simpa using h
    rw [← h']; exact hL.idxOf_getElem k hk
  obtain ⟨r, h1, h2, h3, h4, h5⟩ := writeBlocks_spec src (nested rows.segs cols.segs) dst
    (fun i j => src.coeff ((indices rows.segs).idxOf i) ((indices cols.segs).idxOf j))
    (by
      intro b hb
      have := nested_rank b hb
      rw [cardinal_eq_length, cardinal_eq_length] at this
      omega)
    (nested_within hr hc)
    (by
      intro b hb s t hs ht
      obtain ⟨e1, e2⟩ := nested_indices b hb s t hs ht
      simp [idx _ ndr _ _ e1, idx _ ndc _ _ e2])
  refine ⟨r, by simp [writeView, visit_eq, h1], h2, h3, ?_, ?_⟩
  · intro k l i j hi hj
    rw [h4 i j]
    · simp [idx _ ndr _ _ hi, idx _ ndc _ _ hj]
    · obtain ⟨b, hb, p1, p2, p3, p4⟩ := covered_rank (rows := rows.segs) (cols := cols.segs)
        (by rw [cardinal_eq_length]; exact lt_of_getElem?_some hi)
        (by rw [cardinal_eq_length]; exact lt_of_getElem?_some hj)
      obtain ⟨e1, e2⟩ := nested_indices b hb (k - b.ro) (l - b.co) (by omega) (by omega)
      rw [show b.ro + (k - b.ro) = k by omega, hi] at e1
      rw [show b.co + (l - b.co) = l by omega, hj] at e2
      simp only [Option.some.injEq] at e1 e2
      exact ⟨b, hb, by omega, by omega, by omega, by omega⟩
  · intro i j hij
    apply h5
    rintro ⟨b, hb, p1, p2, p3, p4⟩
    obtain ⟨e1, e2⟩ := nested_indices b hb (i - b.ri) (j - b.ci) (by omega) (by omega)
    rw [show b.ri + (i - b.ri) = i by omega] at e1
    rw [show b.ci + (j - b.ci) = j by omega] at e2
    exact hij ⟨List.mem_of_getElem? e1, List.mem_of_getElem? e2⟩

example : ∃ r : Mat Nat, writeView ⟨[⟨3, 1⟩, ⟨0, 2⟩], 3⟩ ⟨[⟨1, 2⟩], 2⟩ ⟨4, 4, fun _ _ => 99⟩
    ⟨3, 2, fun i j => 10 * i + j⟩ = some r ∧ r.coeff 3 2 = 1 ∧ r.coeff 2 2 = 99 := by
  obtain ⟨r, h, -, -, hc, hf⟩ := C07_write ⟨[⟨3, 1⟩, ⟨0, 2⟩], 3⟩ ⟨[⟨1, 2⟩], 2⟩
    (⟨4, 4, fun _ _ => 99⟩ : Mat Nat) ⟨3, 2, fun i j => 10 * i + j⟩ (by decide) (by decide)
    (by simp [Within]) (by simp [Within]) (by decide) (by decide)
  exact ⟨r, h, by rw [hc 0 1 3 2 (by decide) (by decide)], by rw [hf 2 2 (by decide)]⟩

/-- C07. Writing a matrix into a view then reading the view gives the matrix back. -/
theorem C07_write_read {α : Type} (rows cols : Blocks) (dst src : Mat α) (junk : Nat → Nat → α)
    (hnr : rows.nb = (indices rows.segs).length) (hnc : cols.nb = (indices cols.segs).length)
    (hsr : src.rows = (indices rows.segs).length) (hsc : src.cols = (indices cols.segs).length)
    (hr : Within rows.segs dst.rows) (hc : Within cols.segs dst.cols)
    (ndr : (indices rows.segs).Nodup) (ndc : (indices cols.segs).Nodup) :
    ∃ m r, writeView rows cols dst src = some m ∧ readView rows cols m junk = some r ∧
      r.rows = src.rows ∧ r.cols = src.cols ∧
      ∀ k l, k < src.rows → l < src.cols → r.coeff k l = src.coeff k l := by
  obtain ⟨m, h1, h2, h3, h4, -⟩ := C07_write rows cols dst src hsr hsc hr hc ndr ndc
  obtain ⟨r, e1, e2, e3, e4⟩ := C07_read rows cols m junk hnr hnc (by rw [h2]; exact hr)
    (by rw [h3]; exact hc)
  refine ⟨m, r, h1, e1, by omega, by omega, ?_⟩
  intro k l hk hl
  have hi := List.getElem?_eq_getElem (l := indices rows.segs) (i := k) (by omega)
  have hj := List.getElem?_eq_getElem (l := indices cols.segs) (i := l) (by omega)
  rw [e4 k l _ _ hi hj, h4 k l _ _ hi hj]

/-- C07. Reading a view then writing the result back changes no coefficient (repeated indices
excluded). -/
theorem C07_read_write {α : Type} (rows cols : Blocks) (m : Mat α) (junk : Nat → Nat → α)
    (hnr : rows.nb = (indices rows.segs).length) (hnc : cols.nb = (indices cols.segs).length)
    (hr : Within rows.segs m.rows) (hc : Within cols.segs m.cols)
    (ndr : (indices rows.segs).Nodup) (ndc : (indices cols.segs).Nodup) :
    ∃ v r, readView rows cols m junk = some v ∧ writeView rows cols m v = some r ∧
      ∀ i j, r.coeff i j = m.coeff i j := by
  obtain ⟨v, e1, e2, e3, e4⟩ := C07_read rows cols m junk hnr hnc hr hc
  obtain ⟨r, h1, h2, h3, h4, h5⟩ := C07_write rows cols m v e2 e3 hr hc ndr ndc
  refine ⟨v, r, e1, h1, fun i j => ?_⟩
  by_cases h : i ∈ indices rows.segs ∧ j ∈ indices cols.segs
  · obtain ⟨k, hk⟩ := List.mem_iff_getElem?.1 h.1
    obtain ⟨l, hl⟩ := List.mem_iff_getElem?.1 h.2
    rw [h4 k l i j hk hl, e4 k l i j hk hl]
  · exact h5 i j h

/-- C07. The iterator enumerates each rank of the view in exactly one block, and never runs past the
intervals. -/
theorem C07_blocks (rows cols : Segs) :
    ∃ bs, visit rows cols = some bs ∧ bs.length = rows.length * cols.length ∧
      ∀ k l, k < (indices rows).length → l < (indices cols).length →
        ∃ b ∈ bs, b.ro ≤ k ∧ k < b.ro + b.rs ∧ b.co ≤ l ∧ l < b.co + b.cs ∧
          (indices rows)[k]? = some (b.ri + (k - b.ro)) ∧
          (indices cols)[l]? = some (b.ci + (l - b.co)) := by
  refine ⟨_, visit_eq rows cols, ?_, ?_⟩
  · simp [nested, withOff_length, Nat.mul_comm]
  · intro k l hk hl
    obtain ⟨b, hb, p1, p2, p3, p4⟩ := covered_rank (rows := rows) (cols := cols)
      (by rw [cardinal_eq_length]; exact hk) (by rw [cardinal_eq_length]; exact hl)
    obtain ⟨e1, e2⟩ := nested_indices b hb (k - b.ro) (l - b.co) (by omega) (by omega)
    rw [show b.ro + (k - b.ro) = k by omega] at e1
    rw [show b.co + (l - b.co) = l by omega] at e2
    exact ⟨b, hb, p1, p2, p3, p4, e1, e2⟩

example : (indices [⟨3, 1⟩, ⟨0, 2⟩]).length = 3 := by decide

/-- C07. `view <- view` requires the two views to be cut into blocks of the same sizes.  In that case the
destination receives coefficient by coefficient the source, the rest is unchanged.  (The code
asserts the equality of the sizes of the blocks, not only of the views.) -/
theorem C07_copy {α : Type} (srows scols drows dcols : Blocks) (dst src : Mat α)
    (hlr : srows.segs.map Seg.len = drows.segs.map Seg.len)
    (hlc : scols.segs.map Seg.len = dcols.segs.map Seg.len)
    (hsr : Within srows.segs src.rows) (hsc : Within scols.segs src.cols)
    (hdr : Within drows.segs dst.rows) (hdc : Within dcols.segs dst.cols)
    (ndr : (indices drows.segs).Nodup) (ndc : (indices dcols.segs).Nodup) :
    ∃ r, copyView srows scols drows dcols dst src = some r ∧
      (∀ k l i j i' j' : Nat, (indices srows.segs)[k]? = some i → (indices scols.segs)[l]? = some j →
        (indices drows.segs)[k]? = some i' → (indices dcols.segs)[l]? = some j' →
        r.coeff i' j' = src.coeff i j) ∧
      (∀ i j, ¬ (i ∈ indices drows.segs ∧ j ∈ indices dcols.segs) → r.coeff i j = dst.coeff i j) := by
  -- the two sequences of blocks are in correspondence
  have hz : ∀ (o : Nat) (a b : Segs), a.map Seg.len = b.map Seg.len →
      ∀ p ∈ (withOff o a).zip (withOff o b), p.1.1 = p.2.1 ∧ p.1.2.len = p.2.2.len := by
    intro o a
    induction a generalizing o with
    | nil => intro b _ p hp; simp [withOff] at hp
    | cons s a ih =>
      intro b hb p hp
      cases b with
      | nil => simp at hb
      | cons t b =>
        simp only [List.map_cons, List.cons.injEq] at hb
        simp only [withOff, List.zip_cons_cons, List.mem_cons] at hp
        rcases hp with rfl | hp
        · exact ⟨rfl, hb.1⟩
        · rw [hb.1] at hp; exact ih _ b hb.2 p hp
  have hln : ∀ (a b : Segs), a.map Seg.len = b.map Seg.len → a.length = b.length := by
    intro a b h; simpa using congrArg List.length h
  have hcard : ∀ (a b : Segs), a.map Seg.len = b.map Seg.len → cardinal a = cardinal b := by
    intro a
    induction a with
    | nil => intro b h; cases b with
      | nil => rfl
      | cons => simp at h
    | cons s a ih => intro b h; cases b with
      | nil => simp at h
      | cons t b =>
        simp only [List.map_cons, List.cons.injEq] at h
        simp [h.1, ih b h.2]
  have hzip : ∀ (C D : List (Nat × Seg)) (A B : List (Nat × Seg)), A.length = B.length →
      C.length = D.length →
      (C.flatMap fun c => A.map fun r => (⟨r.1, c.1, r.2.first, c.2.first, r.2.len, c.2.len⟩ : Blk)).zip
        (D.flatMap fun c => B.map fun r => (⟨r.1, c.1, r.2.first, c.2.first, r.2.len, c.2.len⟩ : Blk)) =
      (C.zip D).flatMap fun q => (A.zip B).map fun p =>
        ((⟨p.1.1, q.1.1, p.1.2.first, q.1.2.first, p.1.2.len, q.1.2.len⟩ : Blk),
         (⟨p.2.1, q.2.1, p.2.2.first, q.2.2.first, p.2.2.len, q.2.2.len⟩ : Blk)) := by
    intro C
    induction C with
    | nil => intro D A B _ h; simp
    | cons c C ih =>
      intro D A B hAB h
      cases D with
      | nil => simp at h
      | cons d D =>
        simp only [List.flatMap_cons, List.zip_cons_cons]
        rw [List.zip_append (by simpa using hAB), ih D A B hAB (by simpa using h), List.zip_map]
        rfl
  have hpair : ∀ p ∈ (nested srows.segs scols.segs).zip (nested drows.segs dcols.segs),
      p.1.ro = p.2.ro ∧ p.1.co = p.2.co ∧ p.1.rs = p.2.rs ∧ p.1.cs = p.2.cs ∧
      p.1 ∈ nested srows.segs scols.segs ∧ p.2 ∈ nested drows.segs dcols.segs := by
    intro p hp
    have hm := List.of_mem_zip (a := p.1) (b := p.2) hp
    have hp' := hp
    unfold nested at hp'
    rw [hzip _ _ _ _ (by simp [withOff_length, hln _ _ hlr])
      (by simp [withOff_length, hln _ _ hlc])] at hp'
    simp only [List.mem_flatMap, List.mem_map] at hp'
    obtain ⟨q, hq, x, hx, rfl⟩ := hp'
    have h1 := hz 0 _ _ hlc q hq
    have h2 := hz 0 _ _ hlr x hx
    exact ⟨h2.1, h1.1, h2.2, h1.2, hm.1, hm.2⟩
  have hlen : (nested srows.segs scols.segs).length = (nested drows.segs dcols.segs).length := by
    simp [nested, withOff_length, hln _ _ hlr, hln _ _ hlc]
  have idx : ∀ (L : List Nat), L.Nodup → ∀ k i, L[k]? = some i → L.idxOf i = k := by
    intro L hL k i h
    have hk := lt_of_getElem?_some h
    rw [List.getElem?_eq_getElem hk] at h
    have h' : L[k] = i := by simpa using h
    rw [← h']; exact hL.idxOf_getElem k hk
  obtain ⟨r, h1, h2, h3, h4, h5⟩ := readBlocks_spec src
    (((nested srows.segs scols.segs).zip (nested drows.segs dcols.segs)).map
      fun p => ⟨p.2.ri, p.2.ci, p.1.ri, p.1.ci, p.1.rs, p.1.cs⟩) dst
    (fun i j => src.coeff ((indices srows.segs).getD ((indices drows.segs).idxOf i) 0)
      ((indices scols.segs).getD ((indices dcols.segs).idxOf j) 0))
    (by
      intro b hb
      obtain ⟨p, hp, rfl⟩ := List.mem_map.1 hb
      exact nested_within hsr hsc p.1 (hpair p hp).2.2.2.2.1)
    (by
      intro b hb
      obtain ⟨p, hp, rfl⟩ := List.mem_map.1 hb
      obtain ⟨-, -, e3, e4, -, e6⟩ := hpair p hp
      have := nested_within hdr hdc _ e6
      simp only; omega)
    (by
      intro b hb s t hs ht
      obtain ⟨p, hp, rfl⟩ := List.mem_map.1 hb
      obtain ⟨e1, e2, e3, e4, e5, e6⟩ := hpair p hp
      simp only at hs ht
      obtain ⟨a1, a2⟩ := nested_indices _ e5 s t hs ht
      obtain ⟨b1, b2⟩ := nested_indices _ e6 s t (by omega) (by omega)
      simp only
      rw [idx _ ndr _ _ b1, idx _ ndc _ _ b2, ← e1, ← e2]
      simp [List.getD, a1, a2])
  refine ⟨r, ?_, ?_, ?_⟩
  · simp only [copyView, visit_eq, Option.bind_eq_bind, Option.bind_some]
    rw [copyBlocks_eq _ _ _ _ hlen (fun p hp => ⟨(hpair p hp).2.2.1, (hpair p hp).2.2.2.1⟩), h1]
  · intro k l i j i' j' hi hj hi' hj'
    rw [h4 i' j']
    · simp [idx _ ndr _ _ hi', idx _ ndc _ _ hj', List.getD, hi, hj]
    · obtain ⟨b, hb, p1, p2, p3, p4⟩ := covered_rank (rows := drows.segs) (cols := dcols.segs)
        (by rw [cardinal_eq_length]; exact lt_of_getElem?_some hi')
        (by rw [cardinal_eq_length]; exact lt_of_getElem?_some hj')
      obtain ⟨n, hn, hbn⟩ := List.mem_iff_getElem.1 hb
      have hpm : ((nested srows.segs scols.segs)[n]'(by omega), b) ∈
          (nested srows.segs scols.segs).zip (nested drows.segs dcols.segs) := by
        rw [List.mem_iff_getElem]
        exact ⟨n, by simp; omega, by simp [hbn]⟩
      obtain ⟨e1, e2, e3, e4, -, -⟩ := hpair _ hpm
      obtain ⟨f1, f2⟩ := nested_indices b hb (k - b.ro) (l - b.co) (by omega) (by omega)
      rw [show b.ro + (k - b.ro) = k by omega, hi'] at f1
      rw [show b.co + (l - b.co) = l by omega, hj'] at f2
      simp only [Option.some.injEq] at f1 f2
      refine ⟨_, List.mem_map.2 ⟨_, hpm, rfl⟩, ?_⟩
      simp only at e1 e2 e3 e4 ⊢
      omega
  · intro i j hij
    apply h5
    rintro ⟨b, hb, p1, p2, p3, p4⟩
    obtain ⟨p, hp, rfl⟩ := List.mem_map.1 hb
    obtain ⟨e1, e2, e3, e4, e5, e6⟩ := hpair p hp
    simp only at p1 p2 p3 p4
    obtain ⟨f1, f2⟩ := nested_indices _ e6 (i - p.2.ri) (j - p.2.ci) (by omega) (by omega)
    rw [show p.2.ri + (i - p.2.ri) = i by omega] at f1
    rw [show p.2.ci + (j - p.2.ci) = j by omega] at f2
    exact hij ⟨List.mem_of_getElem? f1, List.mem_of_getElem? f2⟩

example : ([⟨3, 1⟩, ⟨0, 2⟩] : Segs).map Seg.len = ([⟨0, 1⟩, ⟨2, 2⟩] : Segs).map Seg.len := by decide

/-- C07. Views of the same size but cut differently cannot be assigned to one another: the
assertion on the sizes of the blocks fails. -/
theorem C07_copy_needs_same_cut :
    copyView ⟨[⟨0, 2⟩], 2⟩ ⟨[⟨0, 1⟩], 1⟩ ⟨[⟨0, 1⟩, ⟨2, 1⟩], 2⟩ ⟨[⟨0, 1⟩], 1⟩
      (⟨3, 1, fun _ _ => 0⟩ : Mat Nat) ⟨3, 1, fun i _ => i⟩ = none := by
  rfl

/-! ### C67: element-wise operations on views -/

/-- What an element-wise operation on two views has to compute: coefficient `(k, l)` combines the
coefficients of rank `(k, l)` of both operands. -/
def IsBinOp {α : Type} (op : α → α → α) (lr lc rr rc : List Nat) (lhs rhs r : Mat α) : Prop :=
  ∀ k l i j i' j', lr[k]? = some i → lc[l]? = some j → rr[k]? = some i' → rc[l]? = some j' →
    r.coeff k l = op (lhs.coeff i j) (rhs.coeff i' j')

/-- C67. False: the right operand is read at the indices of the left one. -/
theorem C67_view_op_view_refuted :
    ∃ r, binView (· + ·) ⟨[⟨0, 1⟩], 1⟩ ⟨[⟨0, 1⟩], 1⟩ ⟨[⟨1, 1⟩], 1⟩ ⟨[⟨0, 1⟩], 1⟩
        (⟨2, 1, fun i _ => 10 * (i + 1)⟩ : Mat Nat) ⟨2, 1, fun i _ => i + 1⟩ ⟨1, 1, fun _ _ => 0⟩
        = some r ∧
      ¬ IsBinOp (· + ·) (indices [⟨0, 1⟩]) (indices [⟨0, 1⟩]) (indices [⟨1, 1⟩]) (indices [⟨0, 1⟩])
        (⟨2, 1, fun i _ => 10 * (i + 1)⟩ : Mat Nat) ⟨2, 1, fun i _ => i + 1⟩ r := by
  refine ⟨_, rfl, fun h => ?_⟩
  have := h 0 0 0 0 1 0 (by decide) (by decide) (by decide) (by decide)
  revert this; decide

theorem binBlocks_self {α : Type} (op : α → α → α) (lhs rhs : Mat α) (bs : List Blk) (dst : Mat α)
    (h1 : ∀ b ∈ bs, b.ri + b.rs ≤ lhs.rows ∧ b.ci + b.cs ≤ lhs.cols)
    (h2 : ∀ b ∈ bs, b.ri + b.rs ≤ rhs.rows ∧ b.ci + b.cs ≤ rhs.cols) :
    binBlocks op lhs rhs bs bs dst = readBlocks
      ⟨lhs.rows, lhs.cols, fun i j => op (lhs.coeff i j) (rhs.coeff i j)⟩ bs dst := by
  induction bs generalizing dst with
  | nil => rfl
  | cons b bs ih =>
    have e1 := getBlock_some lhs b.ri b.ci b.rs b.cs (h1 b (by simp))
    have e2 := getBlock_some rhs b.ri b.ci b.rs b.cs (h2 b (by simp))
    have e3 := getBlock_some (⟨lhs.rows, lhs.cols, fun i j => op (lhs.coeff i j) (rhs.coeff i j)⟩ : Mat α)
      b.ri b.ci b.rs b.cs (h1 b (by simp))
    simp only [binBlocks, readBlocks, and_self, if_true, e1, e2, e3, Option.bind_eq_bind,
      Option.bind_some]
    congr 1; funext m
    exact ih m (fun x hx => h1 x (by simp [hx])) (fun x hx => h2 x (by simp [hx]))

/-- C67, what holds: when the two views have the same intervals the result is right. -/
theorem C67_view_op_view_partial {α : Type} (op : α → α → α) (rows cols : Blocks)
    (lhs rhs dst : Mat α)
    (hd : dst.rows = (indices rows.segs).length ∧ dst.cols = (indices cols.segs).length)
    (h1 : Within rows.segs lhs.rows) (h2 : Within cols.segs lhs.cols)
    (h3 : Within rows.segs rhs.rows) (h4 : Within cols.segs rhs.cols) :
    ∃ r, binView op rows cols rows cols lhs rhs dst = some r ∧
      IsBinOp op (indices rows.segs) (indices cols.segs) (indices rows.segs) (indices cols.segs)
        lhs rhs r := by
  obtain ⟨r, e1, -, -, e4⟩ := C07_read ⟨rows.segs, (indices rows.segs).length⟩
    ⟨cols.segs, (indices cols.segs).length⟩
    ⟨lhs.rows, lhs.cols, fun i j => op (lhs.coeff i j) (rhs.coeff i j)⟩ dst.coeff rfl rfl h1 h2
  refine ⟨r, ?_, ?_⟩
  · simp only [readView, visit_eq, Option.bind_eq_bind, Option.bind_some] at e1
    simp only [binView, visit_eq, Option.bind_eq_bind, Option.bind_some]
    rw [binBlocks_self _ _ _ _ _ (nested_within h1 h2) (nested_within h3 h4), ← e1, ← hd.1, ← hd.2]
  · intro k l i j i' j' hi hj hi' hj'
    rw [hi] at hi'; rw [hj] at hj'
    simp only [Option.some.injEq] at hi' hj'
    rw [← hi', ← hj', e4 k l i j hi hj]

example : ∃ r : Mat Nat, binView (· + ·) ⟨[⟨1, 1⟩], 1⟩ ⟨[⟨0, 1⟩], 1⟩ ⟨[⟨1, 1⟩], 1⟩ ⟨[⟨0, 1⟩], 1⟩
    ⟨2, 1, fun i _ => 10 * (i + 1)⟩ ⟨2, 1, fun i _ => i + 1⟩ ⟨1, 1, fun _ _ => 0⟩ = some r ∧
    r.coeff 0 0 = 22 := ⟨_, rfl, by decide⟩

/-- C67. A matrix combined with a view: coefficient `(k, l)` of the matrix with the coefficient of
rank `(k, l)` of the view. -/
theorem C67_matrix_op_view {α : Type} (op : α → α → α) (rows cols : Blocks) (lhs rhs dst : Mat α)
    (hd : dst.rows = (indices rows.segs).length ∧ dst.cols = (indices cols.segs).length)
    (hl : lhs.rows = (indices rows.segs).length ∧ lhs.cols = (indices cols.segs).length)
    (h3 : Within rows.segs rhs.rows) (h4 : Within cols.segs rhs.cols) :
    ∃ r, binMatView op rows cols lhs rhs dst = some r ∧
      ∀ k l i j, (indices rows.segs)[k]? = some i → (indices cols.segs)[l]? = some j →
        r.coeff k l = op (lhs.coeff k l) (rhs.coeff i j) := by
  have key : ∀ (bs : List Blk) (dst : Mat α),
      (∀ b ∈ bs, b.ro + b.rs ≤ lhs.rows ∧ b.co + b.cs ≤ lhs.cols) →
      (∀ b ∈ bs, b.ro + b.rs ≤ dst.rows ∧ b.co + b.cs ≤ dst.cols) →
      (∀ b ∈ bs, b.ri + b.rs ≤ rhs.rows ∧ b.ci + b.cs ≤ rhs.cols) →
      (∀ b ∈ bs, ∀ s t, s < b.rs → t < b.cs → (indices rows.segs)[b.ro + s]? = some (b.ri + s) ∧
        (indices cols.segs)[b.co + t]? = some (b.ci + t)) →
      ∃ r, binMatBlocks op lhs rhs bs dst = some r ∧
        (∀ k l, (∃ b ∈ bs, b.ro ≤ k ∧ k < b.ro + b.rs ∧ b.co ≤ l ∧ l < b.co + b.cs) →
          r.coeff k l = op (lhs.coeff k l) (rhs.coeff ((indices rows.segs).getD k 0)
            ((indices cols.segs).getD l 0))) ∧
        (∀ k l, (¬ ∃ b ∈ bs, b.ro ≤ k ∧ k < b.ro + b.rs ∧ b.co ≤ l ∧ l < b.co + b.cs) →
          r.coeff k l = dst.coeff k l) := by
    intro bs
    induction bs with
    | nil => intro dst _ _ _ _; exact ⟨dst, rfl, by simp, by simp⟩
    | cons b bs ih =>
      intro dst a1 a2 a3 a4
      have e1 := getBlock_some lhs b.ro b.co b.rs b.cs (a1 b (by simp))
      have e2 := getBlock_some rhs b.ri b.ci b.rs b.cs (a3 b (by simp))
      have e3 := setBlock_some dst b.ro b.co b.rs b.cs
        (fun i j => op (lhs.coeff (b.ro + i) (b.co + j)) (rhs.coeff (b.ri + i) (b.ci + j)))
        (a2 b (by simp))
      obtain ⟨r, hr, hin, hout⟩ := ih { dst with coeff := fun i j =>
          if b.ro ≤ i ∧ i < b.ro + b.rs ∧ b.co ≤ j ∧ j < b.co + b.cs then
            (op (lhs.coeff (b.ro + (i - b.ro)) (b.co + (j - b.co)))
              (rhs.coeff (b.ri + (i - b.ro)) (b.ci + (j - b.co)))) else dst.coeff i j }
        (fun x hx => a1 x (by simp [hx])) (fun x hx => a2 x (by simp [hx]))
        (fun x hx => a3 x (by simp [hx])) (fun x hx => a4 x (by simp [hx]))
      refine ⟨r, by simp [binMatBlocks, e1, e2, e3, hr], ?_, ?_⟩
      · rintro i j ⟨x, hx, hc⟩
        by_cases hb : ∃ b ∈ bs, b.ro ≤ i ∧ i < b.ro + b.rs ∧ b.co ≤ j ∧ j < b.co + b.cs
        · exact hin i j hb
        · rw [hout i j hb]
          rcases List.mem_cons.1 hx with rfl | hx
          · simp only [hc, and_self, if_true]
            obtain ⟨f1, f2⟩ := a4 x (by simp) (i - x.ro) (j - x.co) (by omega) (by omega)
            rw [show x.ro + (i - x.ro) = i by omega] at f1 ⊢
            rw [show x.co + (j - x.co) = j by omega] at f2 ⊢
            simp [List.getD, f1, f2]
          · exact absurd ⟨x, hx, hc⟩ hb
      · intro i j hno
        rw [hout i j (fun ⟨x, hx, hc⟩ => hno ⟨x, by simp [hx], hc⟩)]
        exact if_neg (fun hc => hno ⟨b, by simp, hc⟩)
  have hrank : ∀ b ∈ nested rows.segs cols.segs, b.ro + b.rs ≤ (indices rows.segs).length ∧
      b.co + b.cs ≤ (indices cols.segs).length := by
    intro b hb
    have := nested_rank b hb
    rw [cardinal_eq_length, cardinal_eq_length] at this
    exact this
  obtain ⟨r, h1, h2, -⟩ := key (nested rows.segs cols.segs) dst
    (by rw [hl.1, hl.2]; exact hrank) (by rw [hd.1, hd.2]; exact hrank)
    (nested_within h3 h4) nested_indices
  refine ⟨r, by simp [binMatView, visit_eq, h1], ?_⟩
  intro k l i j hi hj
  rw [h2 k l (covered_rank (by rw [cardinal_eq_length]; exact lt_of_getElem?_some hi)
    (by rw [cardinal_eq_length]; exact lt_of_getElem?_some hj))]
  simp [List.getD, hi, hj]

theorem binViewMatBlocks_swap {α : Type} (op : α → α → α) (lhs rhs : Mat α) (bs : List Blk)
    (dst : Mat α)
    (h1 : ∀ b ∈ bs, b.ri + b.rs ≤ lhs.rows ∧ b.ci + b.cs ≤ lhs.cols)
    (h2 : ∀ b ∈ bs, b.ro + b.rs ≤ rhs.rows ∧ b.co + b.cs ≤ rhs.cols) :
    binViewMatBlocks op lhs rhs bs dst = binMatBlocks (fun x y => op y x) rhs lhs bs dst := by
  induction bs generalizing dst with
  | nil => rfl
  | cons b bs ih =>
    have e1 := getBlock_some lhs b.ri b.ci b.rs b.cs (h1 b (by simp))
    have e2 := getBlock_some rhs b.ro b.co b.rs b.cs (h2 b (by simp))
    simp only [binViewMatBlocks, binMatBlocks, e1, e2, Option.bind_eq_bind, Option.bind_some]
    congr 1; funext m
    exact ih m (fun x hx => h1 x (by simp [hx])) (fun x hx => h2 x (by simp [hx]))

/-- C67. A view combined with a matrix. -/
theorem C67_view_op_matrix {α : Type} (op : α → α → α) (rows cols : Blocks) (lhs rhs dst : Mat α)
    (hd : dst.rows = (indices rows.segs).length ∧ dst.cols = (indices cols.segs).length)
    (hl : rhs.rows = (indices rows.segs).length ∧ rhs.cols = (indices cols.segs).length)
    (h3 : Within rows.segs lhs.rows) (h4 : Within cols.segs lhs.cols) :
    ∃ r, binViewMat op rows cols lhs rhs dst = some r ∧
      ∀ k l i j, (indices rows.segs)[k]? = some i → (indices cols.segs)[l]? = some j →
        r.coeff k l = op (lhs.coeff i j) (rhs.coeff k l) := by
  obtain ⟨r, h1, h2⟩ := C67_matrix_op_view (fun x y => op y x) rows cols rhs lhs dst hd hl h3 h4
  refine ⟨r, ?_, h2⟩
  simp only [binMatView, visit_eq, Option.bind_eq_bind, Option.bind_some] at h1
  simp only [binViewMat, visit_eq, Option.bind_eq_bind, Option.bind_some]
  rw [binViewMatBlocks_swap _ _ _ _ _ (nested_within h3 h4), h1]
  intro b hb
  have := nested_rank b hb
  rw [cardinal_eq_length, cardinal_eq_length] at this
  omega

example : ∃ r : Mat Nat, binViewMat (· - ·) ⟨[⟨1, 1⟩], 1⟩ ⟨[⟨0, 1⟩], 1⟩
    ⟨2, 1, fun i _ => 10 * (i + 1)⟩ ⟨1, 1, fun _ _ => 3⟩ ⟨1, 1, fun _ _ => 0⟩ = some r ∧
    r.coeff 0 0 = 17 := ⟨_, rfl, by decide⟩

end Hpp
