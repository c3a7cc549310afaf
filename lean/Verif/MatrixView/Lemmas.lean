import Verif.MatrixView.Model
import Verif.Segments.Lemmas

namespace Hpp

/-- Intervals paired with the rank of their first index. -/
def withOff : Nat → Segs → List (Nat × Seg)
  | _, [] => []
  | o, s :: l => (o, s) :: withOff (o + s.len) l

/-- The blocks of a view listed column block by column block. -/
def nested (rows cols : Segs) : List Blk :=
  (withOff 0 cols).flatMap fun c => (withOff 0 rows).map fun r =>
    ⟨r.1, c.1, r.2.first, c.2.first, r.2.len, c.2.len⟩

theorem withOff_length (o : Nat) (l : Segs) : (withOff o l).length = l.length := by
  induction l generalizing o with
  | nil => rfl
  | cons s l ih => simp [withOff, ih]

theorem withOff_append (o : Nat) (l m : Segs) :
    withOff o (l ++ m) = withOff o l ++ withOff (o + cardinal l) m := by
  induction l generalizing o with
  | nil => simp [withOff]
  | cons s l ih => simp [withOff, ih, Nat.add_assoc]

theorem withOff_mem (o : Nat) (l : Segs) (p : Nat × Seg) (hp : p ∈ withOff o l) (t : Nat)
    (ht : t < p.2.len) : o ≤ p.1 ∧ p.1 + p.2.len ≤ o + cardinal l ∧
      (indices l)[p.1 - o + t]? = some (p.2.first + t) := by
  induction l generalizing o with
  | nil => simp [withOff] at hp
  | cons s l ih =>
    rcases List.mem_cons.1 hp with rfl | hp
    · refine ⟨by simp, by simp, ?_⟩
      simp only [indices_cons, Nat.sub_self, Nat.zero_add]
      rw [List.getElem?_append_left (by simpa using ht), List.getElem?_range']
      · simp
      · exact ht
    · obtain ⟨h1, h2, h3⟩ := ih _ hp
      refine ⟨by omega, by simp; omega, ?_⟩
      rw [indices_cons, List.getElem?_append_right (by simp; omega), ← h3]
      congr 1; simp; omega

theorem withOff_le (o : Nat) (l : Segs) (p : Nat × Seg) (hp : p ∈ withOff o l) :
    o ≤ p.1 ∧ p.1 + p.2.len ≤ o + cardinal l := by
  induction l generalizing o with
  | nil => simp [withOff] at hp
  | cons s l ih =>
    rcases List.mem_cons.1 hp with rfl | hp
    · simp
    · have := ih _ hp; simp; omega

theorem withOff_snd_mem (o : Nat) (l : Segs) (p : Nat × Seg) (hp : p ∈ withOff o l) : p.2 ∈ l := by
  induction l generalizing o with
  | nil => simp [withOff] at hp
  | cons s l ih =>
    rcases List.mem_cons.1 hp with rfl | hp
    · simp
    · simp [ih _ hp]

theorem withOff_cover (o : Nat) (l : Segs) (k : Nat) (h1 : o ≤ k) (h2 : k < o + cardinal l) :
    ∃ p ∈ withOff o l, p.1 ≤ k ∧ k < p.1 + p.2.len := by
  induction l generalizing o with
  | nil => simp at h2; omega
  | cons s l ih =>
    by_cases h : k < o + s.len
    · exact ⟨(o, s), by simp [withOff], h1, h⟩
    · obtain ⟨p, hp, h3⟩ := ih (o + s.len) (by omega) (by simp at h2; omega)
      exact ⟨p, by simp [withOff, hp], h3⟩

/-! ### the iterator visits all blocks -/

theorem visitLoop_rows (rows cols : Segs) (c : Seg) (col co : Nat) (hc : cols[col]? = some c)
    (hrows : 0 < rows.length) (pre rest : Segs) (hrr : rows = pre ++ rest) (hrest : rest ≠ [])
    (fuel : Nat) :
    visitLoop rows cols (fuel + rest.length) ⟨pre.length, col, cardinal pre, co⟩ =
      (visitLoop rows cols fuel ⟨0, col + 1, 0, co + c.len⟩).map
        ((withOff (cardinal pre) rest).map
          (fun r => (⟨r.1, co, r.2.first, c.first, r.2.len, c.len⟩ : Blk)) ++ ·) := by
  have hcl : col < cols.length := by
    by_contra h; rw [List.getElem?_eq_none (by omega)] at hc; simp at hc
  induction rest generalizing pre with
  | nil => exact absurd rfl hrest
  | cons r rest ih =>
    rw [List.length_cons, show fuel + (rest.length + 1) = (fuel + rest.length) + 1 by omega]
    have hget : rows[pre.length]? = some r := by subst hrr; simp
    rw [visitLoop]
    simp only [BlockIt.valid, hrows, decide_true, hcl, Bool.and_self, if_true, BlockIt.blk, hget, hc]
    by_cases hne : rest = []
    · subst hne
      have hlen : pre.length + 1 = rows.length := by subst hrr; simp
      simp only [BlockIt.next, hlen, if_true, List.length_nil, Nat.add_zero, withOff, List.map_cons,
        List.map_nil]
      rfl
    · have hlen : ¬ pre.length + 1 = rows.length := by
        subst hrr; simp; exact hne
      simp only [BlockIt.next, hlen, if_false]
      have := ih (pre ++ [r]) (by simp [hrr]) hne
      simp only [List.length_append, List.length_singleton, cardinal_append, cardinal_cons,
        cardinal_nil, Nat.add_zero] at this
      rw [this]
      simp [withOff, Option.map_map, Function.comp_def]

theorem visitLoop_cols (rows cols : Segs) (hrows : 0 < rows.length) (pre rest : Segs)
    (hcc : cols = pre ++ rest) (fuel : Nat) :
    visitLoop rows cols (fuel + 1 + rest.length * rows.length) ⟨0, pre.length, 0, cardinal pre⟩ =
      some ((withOff (cardinal pre) rest).flatMap fun c => (withOff 0 rows).map fun r =>
        ⟨r.1, c.1, r.2.first, c.2.first, r.2.len, c.2.len⟩) := by
  induction rest generalizing pre with
  | nil =>
    have : ¬ pre.length < cols.length := by subst hcc; simp
    simp [visitLoop, BlockIt.valid, this, withOff]
  | cons c rest ih =>
    have hget : cols[pre.length]? = some c := by subst hcc; simp
    have e : fuel + 1 + (c :: rest).length * rows.length =
        (fuel + 1 + rest.length * rows.length) + rows.length := by
      simp only [List.length_cons, Nat.add_mul, Nat.one_mul]; omega
    rw [e]
    have := visitLoop_rows rows cols c pre.length (cardinal pre) hget hrows [] rows rfl
      (by rintro rfl; simp at hrows) (fuel + 1 + rest.length * rows.length)
    simp only [List.length_nil, cardinal_nil] at this
    rw [this]
    have h2 := ih (pre ++ [c]) (by simp [hcc])
    simp only [List.length_append, List.length_singleton, cardinal_append, cardinal_cons,
      cardinal_nil, Nat.add_zero] at h2
    rw [h2]
    simp [withOff]

theorem visit_eq (rows cols : Segs) : visit rows cols = some (nested rows cols) := by
  unfold visit nested
  by_cases h : 0 < rows.length
  · have := visitLoop_cols rows cols h [] cols rfl 0
    simp only [List.length_nil, cardinal_nil] at this
    rw [← this]
    congr 1
    rw [Nat.mul_comm]; omega
  · have : rows = [] := by
      cases rows with
      | nil => rfl
      | cons a b => simp at h
    subst this
    simp [visitLoop, BlockIt.valid, withOff]

/-! ### folding block assignments -/

theorem setBlock_some {α : Type} (m : Mat α) (r c rs cs : Nat) (f : Nat → Nat → α)
    (h : r + rs ≤ m.rows ∧ c + cs ≤ m.cols) :
    m.setBlock r c rs cs f = some { m with coeff := fun i j =>
      if r ≤ i ∧ i < r + rs ∧ c ≤ j ∧ j < c + cs then f (i - r) (j - c) else m.coeff i j } := by
  unfold Mat.setBlock; rw [if_pos h]

theorem getBlock_some {α : Type} (m : Mat α) (r c rs cs : Nat)
    (h : r + rs ≤ m.rows ∧ c + cs ≤ m.cols) :
    m.getBlock r c rs cs = some fun i j => m.coeff (r + i) (c + j) := by
  unfold Mat.getBlock; rw [if_pos h]

/-- Reading: if every block is within bounds and agrees with the target function `T`, the result
is `T` on the covered coefficients. -/
theorem readBlocks_spec {α : Type} (src : Mat α) (bs : List Blk) (dst : Mat α) (T : Nat → Nat → α)
    (hin : ∀ b ∈ bs, b.ri + b.rs ≤ src.rows ∧ b.ci + b.cs ≤ src.cols)
    (hout : ∀ b ∈ bs, b.ro + b.rs ≤ dst.rows ∧ b.co + b.cs ≤ dst.cols)
    (hT : ∀ b ∈ bs, ∀ s t, s < b.rs → t < b.cs →
      T (b.ro + s) (b.co + t) = src.coeff (b.ri + s) (b.ci + t)) :
    ∃ r, readBlocks src bs dst = some r ∧ r.rows = dst.rows ∧ r.cols = dst.cols ∧
      (∀ i j, (∃ b ∈ bs, b.ro ≤ i ∧ i < b.ro + b.rs ∧ b.co ≤ j ∧ j < b.co + b.cs) →
        r.coeff i j = T i j) ∧
      (∀ i j, (¬ ∃ b ∈ bs, b.ro ≤ i ∧ i < b.ro + b.rs ∧ b.co ≤ j ∧ j < b.co + b.cs) →
        r.coeff i j = dst.coeff i j) := by
  induction bs generalizing dst with
  | nil => exact ⟨dst, rfl, rfl, rfl, by simp, by simp⟩
  | cons b bs ih =>
    have h1 := getBlock_some src b.ri b.ci b.rs b.cs (hin b (by simp))
    have h2 := setBlock_some dst b.ro b.co b.rs b.cs
      (fun i j => src.coeff (b.ri + i) (b.ci + j)) (hout b (by simp))
    obtain ⟨r, hr, hrows, hcols, hin', hout'⟩ := ih
      { dst with coeff := fun i j =>
        if b.ro ≤ i ∧ i < b.ro + b.rs ∧ b.co ≤ j ∧ j < b.co + b.cs then
          src.coeff (b.ri + (i - b.ro)) (b.ci + (j - b.co)) else dst.coeff i j }
      (fun x hx => hin x (by simp [hx])) (fun x hx => hout x (by simp [hx]))
      (fun x hx => hT x (by simp [hx]))
    refine ⟨r, by simp [readBlocks, h1, h2, hr], hrows, hcols, ?_, ?_⟩
    · rintro i j ⟨x, hx, hc⟩
      by_cases hb : ∃ b ∈ bs, b.ro ≤ i ∧ i < b.ro + b.rs ∧ b.co ≤ j ∧ j < b.co + b.cs
      · exact hin' i j hb
      · rw [hout' i j hb]
        rcases List.mem_cons.1 hx with rfl | hx
        · simp only [hc, and_self, if_true]
          have := hT x (by simp) (i - x.ro) (j - x.co) (by omega) (by omega)
          rw [← this]; congr 1 <;> omega
        · exact absurd ⟨x, hx, hc⟩ hb
    · intro i j hno
      rw [hout' i j (fun ⟨x, hx, hc⟩ => hno ⟨x, by simp [hx], hc⟩)]
      exact if_neg (fun hc => hno ⟨b, by simp, hc⟩)

/-- Writing: same with the roles of the two positions exchanged. -/
theorem writeBlocks_spec {α : Type} (src : Mat α) (bs : List Blk) (dst : Mat α) (T : Nat → Nat → α)
    (hin : ∀ b ∈ bs, b.ro + b.rs ≤ src.rows ∧ b.co + b.cs ≤ src.cols)
    (hout : ∀ b ∈ bs, b.ri + b.rs ≤ dst.rows ∧ b.ci + b.cs ≤ dst.cols)
    (hT : ∀ b ∈ bs, ∀ s t, s < b.rs → t < b.cs →
      T (b.ri + s) (b.ci + t) = src.coeff (b.ro + s) (b.co + t)) :
    ∃ r, writeBlocks src bs dst = some r ∧ r.rows = dst.rows ∧ r.cols = dst.cols ∧
      (∀ i j, (∃ b ∈ bs, b.ri ≤ i ∧ i < b.ri + b.rs ∧ b.ci ≤ j ∧ j < b.ci + b.cs) →
        r.coeff i j = T i j) ∧
      (∀ i j, (¬ ∃ b ∈ bs, b.ri ≤ i ∧ i < b.ri + b.rs ∧ b.ci ≤ j ∧ j < b.ci + b.cs) →
        r.coeff i j = dst.coeff i j) := by
  have hsw : ∀ (bs : List Blk) (dst : Mat α), writeBlocks src bs dst =
      readBlocks src (bs.map fun b => ⟨b.ri, b.ci, b.ro, b.co, b.rs, b.cs⟩) dst := by
    intro bs
    induction bs with
    | nil => intro dst; rfl
    | cons b bs ih =>
      intro dst
      simp only [writeBlocks, readBlocks, List.map_cons, ih]
  rw [hsw]
  obtain ⟨r, h1, h2, h3, h4, h5⟩ := readBlocks_spec src
    (bs.map fun b => ⟨b.ri, b.ci, b.ro, b.co, b.rs, b.cs⟩) dst T
    (by simpa using hin) (by simpa using hout) (by simpa using hT)
  exact ⟨r, h1, h2, h3, by simpa using h4, by simpa using h5⟩

theorem mem_nested {rows cols : Segs} {b : Blk} : b ∈ nested rows cols ↔
    ∃ c ∈ withOff 0 cols, ∃ r ∈ withOff 0 rows,
      b = ⟨r.1, c.1, r.2.first, c.2.first, r.2.len, c.2.len⟩ := by
  unfold nested
  simp only [List.mem_flatMap, List.mem_map]
  constructor
  · rintro ⟨c, hc, r, hr, rfl⟩; exact ⟨c, hc, r, hr, rfl⟩
  · rintro ⟨c, hc, r, hr, rfl⟩; exact ⟨c, hc, r, hr, rfl⟩

theorem rank_lt (rows : Segs) (p : Nat × Seg) (hp : p ∈ withOff 0 rows) (s : Nat)
    (hs : s < p.2.len) : (indices rows)[p.1 + s]? = some (p.2.first + s) := by
  have := (withOff_mem 0 rows p hp s hs).2.2
  simpa using this

/-- A segment lies within `n` as soon as ... its stop is at most `n`. -/
def Within (l : Segs) (n : Nat) : Prop := ∀ s ∈ l, s.first + s.len ≤ n

theorem copyBlocks_eq {α : Type} (src : Mat α) (sb db : List Blk) (dst : Mat α)
    (hlen : sb.length = db.length)
    (hsz : ∀ p ∈ sb.zip db, p.1.rs = p.2.rs ∧ p.1.cs = p.2.cs) :
    copyBlocks src sb db dst = readBlocks src
      ((sb.zip db).map fun p => ⟨p.2.ri, p.2.ci, p.1.ri, p.1.ci, p.1.rs, p.1.cs⟩) dst := by
  induction sb generalizing db dst with
  | nil => cases db with
    | nil => rfl
    | cons => simp at hlen
  | cons s sb ih =>
    cases db with
    | nil => simp at hlen
    | cons d db =>
      have h0 := hsz (s, d) (by simp)
      simp only at h0
      simp only [copyBlocks, h0, and_self, if_true, List.zip_cons_cons, List.map_cons, readBlocks]
      congr 1; funext v; congr 1; funext m
      exact ih db m (by simpa using hlen) (fun p hp => hsz p (by simp [hp]))

end Hpp
