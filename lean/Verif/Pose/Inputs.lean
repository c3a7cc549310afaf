import Verif.Pose.Tree

/-!
# Variables of the joints between two joints

src/explicit/relative-transformation.cc:54-101, src/explicit/input-configurations.hh:41-150 and
src/generic-transformation/helper.hh:502-530.

Simplifications: a null joint and the universe are both joint 0 (both stop the loops; `id1 = 0` for a null joint in
`setActiveParameters`).  Writing past the end of the vector of booleans is undefined in the code; `List.modify` ignores such a
write: it cannot happen for the joints of a robot (`Robot.Ok`).
-/

namespace Hpp.Pose

variable {α : Type} [CommRing α]

/-- `for i: v[first + i] = !v[first + i]` (relative-transformation.cc:57-61, input-configurations.hh:60-62). -/
def toggleRange (v : List Bool) (first : Nat) : Nat → List Bool
  | 0 => v
  | n + 1 => (toggleRange v first n).modify (first + n) (fun b => !b)

/-- `inputVariable` (relative-transformation.cc:54-65); fuel `j` is enough since parents have smaller numbers. -/
def Robot.inputVariableLoop (r : Robot α) : Nat → Nat → List Bool × List Bool → List Bool × List Bool
  | 0, _, s => s
  | n + 1, j, s =>
    if j = 0 then s
    else r.inputVariableLoop n (r.parent j)
      (toggleRange s.1 (r.idxq j) (r.jnq j), toggleRange s.2 (r.idxv j) (r.jnv j))

def Robot.inputVariable (r : Robot α) (j : Nat) (s : List Bool × List Bool) : List Bool × List Bool :=
  r.inputVariableLoop j j s

/-- `RelativeTransformation::create` (relative-transformation.cc:85-101): bits of `conf` and `vel` -/
def Robot.inputBits (r : Robot α) (j1 j2 : Nat) : List Bool × List Bool :=
  r.inputVariable (r.parent j2) (r.inputVariable j1 (List.replicate r.nq false, List.replicate r.nv false))

/-- `inConf_`, `vectorOfBoolToIntervals` (relative-transformation.cc:67-73) is `fromLogical`. -/
def Robot.inConf (r : Robot α) (j1 j2 : Nat) : Segs := fromLogical (r.inputBits j1 j2).1

/-- `inVel_` -/
def Robot.inVel (r : Robot α) (j1 j2 : Nat) : Segs := fromLogical (r.inputBits j1 j2).2

/-- `jointConfInterval`, `jointVelInterval` (relative-transformation.cc:75-82, input-configurations.hh:130-138) -/
def Robot.outConf (r : Robot α) (j2 : Nat) : Segs := [⟨r.idxq j2, r.jnq j2⟩]

def Robot.outVel (r : Robot α) (j2 : Nat) : Segs := [⟨r.idxv j2, r.jnv j2⟩]

/-- Loop of `relPoseConfVariables`, `relPoseVelVariables` (input-configurations.hh:59-65, 67-73, 86-91, 93-98) with the ranks and
sizes of the variables as parameters. -/
def Robot.toggleLoop (r : Robot α) (idx size : Nat → Nat) : Nat → Nat → List Bool → List Bool
  | 0, _, s => s
  | n + 1, j, s => if j = 0 then s else r.toggleLoop idx size n (r.parent j) (toggleRange s (idx j) (size j))

/-- `relPoseConfVariables` (input-configurations.hh:55-75) -/
def Robot.relPoseConfVariables (r : Robot α) (j1 j2 : Nat) : List Bool :=
  r.toggleLoop r.idxq r.jnq (r.parent j2) (r.parent j2) (r.toggleLoop r.idxq r.jnq j1 j1 (List.replicate r.nq false))

/-- `relPoseVelVariables` (input-configurations.hh:82-100) -/
def Robot.relPoseVelVariables (r : Robot α) (j1 j2 : Nat) : List Bool :=
  r.toggleLoop r.idxv r.jnv (r.parent j2) (r.parent j2) (r.toggleLoop r.idxv r.jnv j1 j1 (List.replicate r.nv false))

/-- `contact::inputConfVariables` (input-configurations.hh:142-158): `fs` joints of the floors, `j2` joint of the object -/
def Robot.contactBits (n : Nat) (bits : Nat → List Bool) : List Nat → List Bool
  | [] => List.replicate n false
  | f :: fs => (Robot.contactBits n bits fs).zipWith (fun a b => a || b) (bits f)

/-- `activeParameters.segment(first, n).setConstant(true)` -/
def setRange (v : List Bool) (first : Nat) : Nat → List Bool
  | 0 => v
  | n + 1 => (setRange v first n).modify (first + n) (fun _ => true)

/-- `setActiveParameters` (helper.hh:502-530); fuel `i1 + i2`. -/
def Robot.setActiveLoop (r : Robot α) : Nat → Nat → Nat → List Bool × List Bool → List Bool × List Bool
  | 0, _, _, s => s
  | n + 1, i1, i2, s =>
    if i1 = i2 then s
    else
      let i := if i1 > i2 then i1 else i2
      let i1' := if i1 > i2 then r.parent i1 else i1
      let i2' := if i1 > i2 then i2 else r.parent i2
      r.setActiveLoop n i1' i2'
        (if i > 0 then (setRange s.1 (r.idxq i) (r.jnq i), setRange s.2 (r.idxv i) (r.jnv i)) else s)

/-- `setActiveParameters` called on the vectors set to `false` by `computeActiveParams` (generic-transformation.hh). -/
def Robot.activeBits (r : Robot α) (j1 j2 : Nat) : List Bool × List Bool :=
  r.setActiveLoop (j1 + j2) j1 j2 (List.replicate r.nq false, List.replicate r.nv false)

/-! ### Lemmas -/

theorem toggleRange_get (v : List Bool) (first n k : Nat) :
    (toggleRange v first n)[k]? = v[k]?.map (fun b => b ^^ decide (first ≤ k ∧ k < first + n)) := by
  induction n with
  | zero =>
    have : decide (first ≤ k ∧ k < first + 0) = false := decide_eq_false (by omega)
    simp only [toggleRange, this, Bool.xor_false]
    cases v[k]? <;> rfl
  | succ n ih =>
    simp only [toggleRange, List.getElem?_modify, ih]
    cases hv : v[k]? with
    | none => simp
    | some b =>
      by_cases h : first + n = k
      · have h1 : decide (first ≤ k ∧ k < first + (n + 1)) = true := decide_eq_true (by omega)
        have h2 : decide (first ≤ k ∧ k < first + n) = false := decide_eq_false (by omega)
        rw [h1, Option.map_some, h2]
        simp only [h, if_true]
        cases b <;> rfl
      · have h1 : decide (first ≤ k ∧ k < first + (n + 1)) = decide (first ≤ k ∧ k < first + n) :=
          decide_eq_decide.2 (by omega)
        simp only [h1, h, Option.map_some, if_false]
        rfl

theorem setRange_get (v : List Bool) (first n k : Nat) :
    (setRange v first n)[k]? = v[k]?.map (fun b => b || decide (first ≤ k ∧ k < first + n)) := by
  induction n with
  | zero =>
    have : decide (first ≤ k ∧ k < first + 0) = false := decide_eq_false (by omega)
    simp only [setRange, this, Bool.or_false]
    cases v[k]? <;> rfl
  | succ n ih =>
    simp only [setRange, List.getElem?_modify, ih]
    cases hv : v[k]? with
    | none => simp
    | some b =>
      by_cases h : first + n = k
      · have h1 : decide (first ≤ k ∧ k < first + (n + 1)) = true := decide_eq_true (by omega)
        have h2 : decide (first ≤ k ∧ k < first + n) = false := decide_eq_false (by omega)
        rw [h1, Option.map_some, h2]
        simp only [h, if_true]
        cases b <;> rfl
      · have h1 : decide (first ≤ k ∧ k < first + (n + 1)) = decide (first ≤ k ∧ k < first + n) :=
          decide_eq_decide.2 (by omega)
        simp only [h1, h, Option.map_some, if_false]
        rfl

omit [CommRing α] in
theorem Robot.inputVariableLoop_eq (r : Robot α) (n j : Nat) (s : List Bool × List Bool) :
    r.inputVariableLoop n j s = (r.toggleLoop r.idxq r.jnq n j s.1, r.toggleLoop r.idxv r.jnv n j s.2) := by
  induction n generalizing j s with
  | zero => rfl
  | succ n ih =>
    simp only [inputVariableLoop, toggleLoop]
    split
    · rfl
    · rw [ih]

omit [CommRing α] in
theorem Robot.toggleLoop_eq (r : Robot α) (idx size : Nat → Nat) (n j : Nat) (s : List Bool) :
    r.toggleLoop idx size n j s = (r.chainLoop n j).foldl (fun s j => toggleRange s (idx j) (size j)) s := by
  induction n generalizing j s with
  | zero => rfl
  | succ n ih =>
    simp only [toggleLoop, chainLoop]
    split
    · rfl
    · simp [ih]

open Classical in
/-- Toggling the variables of distinct joints flips the variables of these joints. -/
theorem foldl_toggle (idx size : Nat → Nat) {l : List Nat} (hn : l.Nodup)
    (hd : ∀ i ∈ l, ∀ j ∈ l, ∀ k, idx i ≤ k → k < idx i + size i → idx j ≤ k → k < idx j + size j → i = j)
    (s : List Bool) (k : Nat) :
    (l.foldl (fun s j => toggleRange s (idx j) (size j)) s)[k]? =
      s[k]?.map (fun b => b ^^ decide (∃ j ∈ l, idx j ≤ k ∧ k < idx j + size j)) := by
  induction l generalizing s with
  | nil => simp
  | cons j l ih =>
    simp only [List.foldl_cons]
    rw [ih (List.nodup_cons.1 hn).2 (fun a ha b hb => hd a (List.mem_cons_of_mem _ ha) b (List.mem_cons_of_mem _ hb)),
      toggleRange_get, Option.map_map]
    congr 1
    funext b
    simp only [Function.comp]
    by_cases h1 : idx j ≤ k ∧ k < idx j + size j
    · have h2 : ¬ ∃ i ∈ l, idx i ≤ k ∧ k < idx i + size i := by
        rintro ⟨i, hi, h⟩
        have := hd j List.mem_cons_self i (List.mem_cons_of_mem _ hi) k h1.1 h1.2 h.1 h.2
        exact (List.nodup_cons.1 hn).1 (this ▸ hi)
      have h3 : ∃ i ∈ j :: l, idx i ≤ k ∧ k < idx i + size i := ⟨j, List.mem_cons_self, h1⟩
      simp only [h1, h2, h3, and_self, decide_true, decide_false, Bool.xor_false]
    · by_cases h2 : ∃ i ∈ l, idx i ≤ k ∧ k < idx i + size i
      · have h3 : ∃ i ∈ j :: l, idx i ≤ k ∧ k < idx i + size i := by
          obtain ⟨i, hi, h⟩ := h2; exact ⟨i, List.mem_cons_of_mem _ hi, h⟩
        simp only [h1, h2, h3, decide_true, decide_false, Bool.xor_false]
      · have h3 : ¬ ∃ i ∈ j :: l, idx i ≤ k ∧ k < idx i + size i := by
          rintro ⟨i, hi, h⟩
          rcases List.mem_cons.1 hi with rfl | hi
          · exact h1 h
          · exact h2 ⟨i, hi, h⟩
        simp only [h1, h2, h3, decide_false, Bool.xor_false]

omit [CommRing α] in
/-- Toggling the variables of two branches: what remains are the variables of the path. -/
theorem Robot.toggle_path {r : Robot α} (hp : ∀ j, 0 < j → r.parent j < j) (idx size : Nat → Nat) (nb : Nat) {i j : Nat}
    (hi : i < r.njoints) (hj : j < r.njoints)
    (hin : ∀ j, 0 < j → j < r.njoints → idx j + size j ≤ nb)
    (hd : ∀ i j k, 0 < i → 0 < j → i < r.njoints → j < r.njoints → idx i ≤ k → k < idx i + size i →
      idx j ≤ k → k < idx j + size j → i = j) (k : Nat) :
    (r.toggleLoop idx size j j (r.toggleLoop idx size i i (List.replicate nb false)))[k]? = some true ↔
      ∃ a, r.OnPath i j a ∧ idx a ≤ k ∧ k < idx a + size a := by
  classical
  have hb : ∀ {i a : Nat}, i < r.njoints → a ∈ r.chain i → 0 < a ∧ a < r.njoints := fun hi ha => by
    have := ((mem_chain hp).1 ha).le hp
    omega
  have hdc : ∀ {i : Nat}, i < r.njoints → ∀ a ∈ r.chain i, ∀ b ∈ r.chain i, ∀ k, idx a ≤ k → k < idx a + size a →
      idx b ≤ k → k < idx b + size b → a = b := fun hi a ha b hb' k =>
    hd a b k (hb hi ha).1 (hb hi hb').1 (hb hi ha).2 (hb hi hb').2
  rw [toggleLoop_eq, toggleLoop_eq]
  change (List.foldl _ (List.foldl _ _ (r.chain i)) (r.chain j))[k]? = _ ↔ _
  rw [foldl_toggle idx size (r.chain_nodup hp j) (hdc hj),
    foldl_toggle idx size (r.chain_nodup hp i) (hdc hi)]
  simp only [Option.map_map, Function.comp_def]
  change Option.map (fun b => (b ^^ decide (∃ a ∈ r.chain i, idx a ≤ k ∧ k < idx a + size a)) ^^
    decide (∃ a ∈ r.chain j, idx a ≤ k ∧ k < idx a + size a)) (List.replicate nb false)[k]? = some true ↔ _
  constructor
  · intro h
    rw [Option.map_eq_some_iff] at h
    obtain ⟨b, hb1, hb2⟩ := h
    have hbf : b = false := by
      have := List.mem_of_getElem? hb1
      exact List.eq_of_mem_replicate this
    subst hbf
    by_cases h1 : ∃ a ∈ r.chain i, idx a ≤ k ∧ k < idx a + size a <;>
      by_cases h2 : ∃ a ∈ r.chain j, idx a ≤ k ∧ k < idx a + size a <;> simp only [h1, h2] at hb2
    · simp at hb2
    · obtain ⟨a, ha, hk⟩ := h1
      refine ⟨a, .inl ⟨(mem_chain hp).1 ha, fun h => h2 ⟨a, (mem_chain hp).2 h, hk⟩⟩, hk⟩
    · obtain ⟨a, ha, hk⟩ := h2
      refine ⟨a, .inr ⟨(mem_chain hp).1 ha, fun h => h1 ⟨a, (mem_chain hp).2 h, hk⟩⟩, hk⟩
    · simp at hb2
  · rintro ⟨a, ha, hk⟩
    rcases ha with ⟨h1, h2⟩ | ⟨h1, h2⟩
    · have m1 := (mem_chain hp).2 h1
      have hlt := hin a (hb hi m1).1 (hb hi m1).2
      have e1 : ∃ a ∈ r.chain i, idx a ≤ k ∧ k < idx a + size a := ⟨a, m1, hk⟩
      have e2 : ¬ ∃ a ∈ r.chain j, idx a ≤ k ∧ k < idx a + size a := by
        rintro ⟨b, mb, hk'⟩
        have := hd a b k (hb hi m1).1 (hb hj mb).1 (hb hi m1).2 (hb hj mb).2 hk.1 hk.2 hk'.1 hk'.2
        subst this
        exact h2 ((mem_chain hp).1 mb)
      rw [List.getElem?_replicate, if_pos (by omega)]
      simp [e1, e2]
    · have m1 := (mem_chain hp).2 h1
      have hlt := hin a (hb hj m1).1 (hb hj m1).2
      have e1 : ∃ a ∈ r.chain j, idx a ≤ k ∧ k < idx a + size a := ⟨a, m1, hk⟩
      have e2 : ¬ ∃ a ∈ r.chain i, idx a ≤ k ∧ k < idx a + size a := by
        rintro ⟨b, mb, hk'⟩
        have := hd a b k (hb hj m1).1 (hb hi mb).1 (hb hj m1).2 (hb hi mb).2 hk.1 hk.2 hk'.1 hk'.2
        subst this
        exact h2 ((mem_chain hp).1 mb)
      rw [List.getElem?_replicate, if_pos (by omega)]
      simp [e1, e2]

omit [CommRing α] in
theorem Robot.onPath_step {r : Robot α} (hp : ∀ j, 0 < j → r.parent j < j) {i j : Nat} (h : j < i) (a : Nat) :
    r.OnPath i j a ↔ a = i ∨ r.OnPath (r.parent i) j a := by
  have hi : ¬ r.Anc i j := fun h' => by have := (h'.le hp).1; omega
  have hu : r.Anc a i ↔ a = i ∨ r.Anc a (r.parent i) := by
    constructor
    · intro h'
      cases h' with
      | self _ => exact .inl rfl
      | up _ h' => exact .inr h'
    · rintro (rfl | h')
      · exact .self (by omega)
      · exact .up (by omega) h'
  unfold OnPath
  rw [hu]
  constructor
  · rintro (⟨rfl | h1, h2⟩ | ⟨h1, h2⟩)
    · exact .inl rfl
    · exact .inr (.inl ⟨h1, h2⟩)
    · exact .inr (.inr ⟨h1, fun h => h2 (.inr h)⟩)
  · rintro (rfl | ⟨h1, h2⟩ | ⟨h1, h2⟩)
    · exact .inl ⟨.inl rfl, hi⟩
    · exact .inl ⟨.inr h1, h2⟩
    · refine .inr ⟨h1, ?_⟩
      rintro (rfl | h3)
      · exact hi h1
      · exact h2 h3

omit [CommRing α] in
theorem Robot.onPath_comm {r : Robot α} {i j a : Nat} : r.OnPath i j a ↔ r.OnPath j i a := or_comm

open Classical in
omit [CommRing α] in
theorem Robot.setActiveLoop_get {r : Robot α} (hp : ∀ j, 0 < j → r.parent j < j) {n i j : Nat} (h : i + j ≤ n)
    (s : List Bool × List Bool) (k : Nat) :
    (r.setActiveLoop n i j s).1[k]? = s.1[k]?.map (fun b => b || decide (∃ a, r.OnPath i j a ∧ r.QVar a k)) ∧
    (r.setActiveLoop n i j s).2[k]? = s.2[k]?.map (fun b => b || decide (∃ a, r.OnPath i j a ∧ r.VVar a k)) := by
  have hself : ∀ i a, ¬ r.OnPath i i a := fun i a h => by
    rcases h with ⟨h1, h2⟩ | ⟨h1, h2⟩ <;> exact h2 h1
  induction n generalizing i j s with
  | zero =>
    obtain ⟨rfl, rfl⟩ : i = 0 ∧ j = 0 := by omega
    simp [setActiveLoop, hself]
  | succ n ih =>
    simp only [setActiveLoop]
    split
    · rename_i he
      subst he
      simp [hself]
    · rename_i hne
      have key : ∀ (P : Nat → Prop) (m : Nat), (∃ a, (a = m ∨ P a) ∧ r.QVar a k) ↔ (r.QVar m k ∨ ∃ a, P a ∧ r.QVar a k) := by
        intro P m
        constructor
        · rintro ⟨a, rfl | ha, hk⟩
          · exact .inl hk
          · exact .inr ⟨a, ha, hk⟩
        · rintro (hk | ⟨a, ha, hk⟩)
          · exact ⟨m, .inl rfl, hk⟩
          · exact ⟨a, .inr ha, hk⟩
      have key' : ∀ (P : Nat → Prop) (m : Nat), (∃ a, (a = m ∨ P a) ∧ r.VVar a k) ↔ (r.VVar m k ∨ ∃ a, P a ∧ r.VVar a k) := by
        intro P m
        constructor
        · rintro ⟨a, rfl | ha, hk⟩
          · exact .inl hk
          · exact .inr ⟨a, ha, hk⟩
        · rintro (hk | ⟨a, ha, hk⟩)
          · exact ⟨m, .inl rfl, hk⟩
          · exact ⟨a, .inr ha, hk⟩
      by_cases hgt : i > j
      · have := hp i (by omega)
        simp only [if_pos hgt, if_pos (show i > 0 by omega)]
        obtain ⟨h1, h2⟩ := ih (i := r.parent i) (j := j) (by omega)
          (setRange s.1 (r.idxq i) (r.jnq i), setRange s.2 (r.idxv i) (r.jnv i))
        rw [h1, h2, setRange_get, setRange_get, Option.map_map, Option.map_map]
        constructor <;> congr 1 <;> funext b
        · simp only [Function.comp, r.onPath_step hp hgt, key]
          rw [Bool.or_assoc, Bool.decide_or]
          congr
        · simp only [Function.comp, r.onPath_step hp hgt, key']
          rw [Bool.or_assoc, Bool.decide_or]
          congr
      · have hlt : i < j := by omega
        have := hp j (by omega)
        simp only [if_neg hgt, if_pos (show j > 0 by omega)]
        obtain ⟨h1, h2⟩ := ih (i := i) (j := r.parent j) (by omega)
          (setRange s.1 (r.idxq j) (r.jnq j), setRange s.2 (r.idxv j) (r.jnv j))
        have hs : ∀ a, r.OnPath i j a ↔ a = j ∨ r.OnPath i (r.parent j) a := fun a => by
          rw [onPath_comm, r.onPath_step hp hlt, onPath_comm (i := r.parent j)]
        rw [h1, h2, setRange_get, setRange_get, Option.map_map, Option.map_map]
        constructor <;> congr 1 <;> funext b
        · simp only [Function.comp, hs, key]
          rw [Bool.or_assoc, Bool.decide_or]
          congr
        · simp only [Function.comp, hs, key']
          rw [Bool.or_assoc, Bool.decide_or]
          congr

end Hpp.Pose
