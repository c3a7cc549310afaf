import Verif.Fun.Equality
import Mathlib.Algebra.Ring.Int.Defs

/-!
# Comparison of functions: C46
-/

namespace Hpp.FnEq

variable {α : Type} [DecidableEq α]

omit [DecidableEq α] in
theorem baseEq_comm (a b : Obj α) : baseEq a b = baseEq b a := by
  unfold baseEq
  simp only [eq_comm]

omit [DecidableEq α] in
theorem baseEq_iff (a b : Obj α) : baseEq a b = true ↔
    a.name = b.name ∧ a.inputSize = b.inputSize ∧ a.inputDer = b.inputDer ∧ a.space = b.space := by
  simp [baseEq, and_assoc]

theorem floorsEq_comm (f f' : List (Nat × List (List α))) (n : Nat) : floorsEq f f' n = floorsEq f' f n := by
  unfold floorsEq
  congr 1
  funext r i
  match r with
  | .ok true => cases f[i]? <;> cases f'[i]? <;> simp [eq_comm]
  | .ok false => rfl
  | .badCast => rfl
  | .ub => rfl

theorem floorsEq_no_cast (f f' : List (Nat × List (List α))) (n : Nat) : floorsEq f f' n ≠ .badCast := by
  unfold floorsEq
  induction n with
  | zero => simp
  | succ n ih =>
    rw [List.range_succ, List.foldl_append]
    simp only [List.foldl_cons, List.foldl_nil]
    generalize (List.range n).foldl _ _ = r at ih ⊢
    match r, ih with
    | .ok true, _ => cases f[n]? <;> cases f'[n]? <;> simp
    | .ok false, _ => simp
    | .ub, _ => simp

theorem floorsEq_self (f : List (Nat × List (List α))) (n : Nat) (h : n ≤ f.length) : floorsEq f f n = .ok true := by
  unfold floorsEq
  induction n with
  | zero => rfl
  | succ n ih =>
    rw [List.range_succ, List.foldl_append, ih (by omega)]
    simp [List.getElem?_eq_getElem (show n < f.length by omega)]

theorem contactEq_comm (r : Nat) (f o : List (Nat × List (List α))) (r' : Nat) (f' o' : List (Nat × List (List α))) :
    contactEq r f o r' f' o' = contactEq r' f' o' r f o := by
  unfold contactEq
  simp only [ne_comm (a := r), ne_comm (a := o.length), floorsEq_comm f f']
  by_cases h : o'.length = o.length
  · simp [h]
  · simp [h]

theorem sibEq_comm (a b : Sib α) : sibEq a b = sibEq b a := by
  unfold sibEq
  rw [contactEq_comm a.robot]
  simp only [eq_comm]

theorem memberEq_comm (a b : Cls α) : memberEq a b = memberEq b a := by
  cases a <;> cases b <;> try rfl
  case contact r f o r' f' o' => exact contactEq_comm ..
  case complement p s p' s' => unfold memberEq; simp only [eq_comm (a := p), sibEq_comm s]
  case manip g r c J K g' r' c' J' K' =>
    unfold memberEq sameSize
    simp only [eq_comm (a := g), eq_comm (a := r), eq_comm (a := c), eq_comm (a := J), eq_comm (a := K),
      eq_comm (a := J.map List.length), eq_comm (a := K.map List.length)]
  case symbolic k r e m k' r' e' m' => unfold memberEq; simp only [ne_comm (a := k), eq_comm]
  case generic k _ _ _ _ _ _ k' _ _ _ _ _ _ => unfold memberEq; simp only [ne_comm (a := k), eq_comm]
  all_goals (unfold memberEq; simp only [eq_comm])

def isExtracted : Cls α → Bool
  | .extracted .. => true
  | _ => false

theorem isEqual_def (a b : Obj α) (h : isExtracted a.cls = false) : isEqual a b =
    withBase (baseEq a b) (memberEq a.cls b.cls) := by
  unfold isEqual
  cases hc : a.cls <;> simp_all [isExtracted]

theorem isEqual_extracted (a b : Obj α) (h : isExtracted a.cls = true) : isEqual a b = .ok (baseEq a b) := by
  unfold isEqual
  cases hc : a.cls <;> simp_all [isExtracted]

theorem member_extracted (a b : Cls α) (h : isExtracted b = true) : memberEq a b = .badCast := by
  cases b <;> simp [isExtracted] at h
  cases a <;> rfl

/-- What `==` amounts to. -/
theorem opEq_eq (a b : Obj α) : opEq a b =
    if isExtracted a.cls && isExtracted b.cls then some (baseEq a b)
    else match memberEq a.cls b.cls with
      | .badCast => some false
      | .ub => if baseEq a b then none else some false
      | .ok r => some (r && baseEq a b) := by
  unfold opEq
  cases ha : isExtracted a.cls with
  | true =>
    rw [isEqual_extracted a b ha]
    cases hb : isExtracted b.cls with
    | true =>
      rw [isEqual_extracted b a hb, baseEq_comm b a]
      cases baseEq a b <;> rfl
    | false =>
      rw [isEqual_def b a hb, member_extracted b.cls a.cls ha, memberEq_comm a.cls b.cls,
        member_extracted b.cls a.cls ha]
      cases baseEq a b <;> rfl
  | false =>
    rw [isEqual_def a b ha]
    simp only [Bool.false_and, Bool.false_eq_true, if_false]
    cases hb : isExtracted b.cls with
    | true => rw [member_extracted a.cls b.cls hb]; rfl
    | false =>
      rw [isEqual_def b a hb, memberEq_comm b.cls a.cls, baseEq_comm b a]
      cases memberEq a.cls b.cls with
      | badCast => rfl
      | ub => cases baseEq a b <;> rfl
      | ok r => cases r <;> cases baseEq a b <;> rfl

/-- C46. The comparison is symmetric, undefined behaviours included. -/
theorem C46_symmetric (a b : Obj α) : opEq a b = opEq b a := by
  rw [opEq_eq, opEq_eq, memberEq_comm b.cls a.cls, baseEq_comm b a, Bool.and_comm]

/-- Classes for which an object is equal to itself. -/
def Cls.Reflexive : Cls α → Prop
  | .constant _ => False
  | .contact _ f o => o.length ≤ f.length
  | _ => True

theorem contactEq_self (r : Nat) (f o : List (Nat × List (List α))) (h : o.length ≤ f.length) :
    contactEq r f o r f o = .ok true := by simp [contactEq, floorsEq_self f o.length h]

/-- C46, part. Reflexivity.  Missing: constant functions (`C46_constant_refuted`) and contacts with more objects than
floors (`C46_contact_undefined_refuted`). -/
theorem C46_reflexive_partial (a : Obj α) (h : a.cls.Reflexive) : opEq a a = some true := by
  rw [opEq_eq]
  have hb : baseEq a a = true := (baseEq_iff a a).2 ⟨rfl, rfl, rfl, rfl⟩
  rw [hb]
  cases hc : a.cls <;> rw [hc] at h
  case constant => exact absurd h id
  case contact r f o => simp [isExtracted, memberEq, contactEq_self r f o h]
  all_goals simp [isExtracted, memberEq, sameSize]

/-- Classes that compare all what their values depend on. -/
def Cls.Compared : Cls α → Prop
  | .constant _ | .extracted .. | .generic .. | .relativeCom .. | .contact .. | .complement .. | .qp .. => False
  | _ => True

/-- C46, part. Functions that compare equal have the same sizes, the same output space and the same values everywhere.
Missing: constant and extracted functions, transformations, relative center of mass, contacts and their complements, for
which this is false, see below; `QPStaticStability`, the values of which are not modelled. -/
theorem C46_congruence_partial [Ring α] (a b : Obj α) (h : a.cls.Compared) (he : opEq a b = some true) :
    a.name = b.name ∧ a.inputSize = b.inputSize ∧ a.inputDer = b.inputDer ∧ a.space = b.space ∧
    ∀ (w : World α) (x : List α), a.cls.value w x = b.cls.value w x := by
  rw [opEq_eq] at he
  have hx : isExtracted a.cls = false := by cases hc : a.cls <;> rw [hc] at h <;> simp_all [isExtracted, Cls.Compared]
  simp only [hx, Bool.false_and, Bool.false_eq_true, if_false] at he
  have hm : memberEq a.cls b.cls = .ok true ∧ baseEq a b = true := by
    cases hm : memberEq a.cls b.cls with
    | badCast => rw [hm] at he; simp at he
    | ub => rw [hm] at he; cases hb : baseEq a b <;> simp [hb] at he
    | ok r =>
      rw [hm] at he
      simp at he
      exact ⟨by rw [he.1], he.2⟩
  obtain ⟨hm, hb⟩ := hm
  obtain ⟨b1, b2, b3, b4⟩ := (baseEq_iff a b).1 hb
  refine ⟨b1, b2, b3, b4, fun w x => ?_⟩
  cases ha : a.cls <;> rw [ha] at h hm <;> cases hb : b.cls <;> rw [hb] at hm
  case symbolic.symbolic k r e m k' r' e' m' =>
    unfold memberEq at hm
    by_cases hk : k = k'
    · simp_all [Cls.value]
    · simp [hk] at hm
  case manip.manip g r c J K g' r' c' J' K' =>
    unfold memberEq at hm
    by_cases hk : g = g' ∧ r = r' ∧ c = c'
    · obtain ⟨rfl, rfl, rfl⟩ := hk
      rfl
    · have e : (decide (g = g') && decide (r = r') && decide (c = c')) = false := by
        rw [Bool.eq_false_iff]; simpa [and_assoc] using hk
      simp only [e] at hm
      simp at hm
  all_goals simp_all [memberEq, Cls.value, Cls.Compared]

/-- C46. Functions of different classes never compare equal. -/
theorem C46_class (a b : Obj α) (he : opEq a b = some true) : a.cls.ctorIdx = b.cls.ctorIdx := by
  rw [opEq_eq] at he
  cases ha : a.cls <;> cases hb : b.cls <;> rw [ha, hb] at he <;> first | rfl | simp [isExtracted, memberEq] at he

theorem floorsEq_trans (f f' f'' : List (Nat × List (List α))) (n : Nat) (h : floorsEq f f' n = .ok true)
    (h' : floorsEq f' f'' n = .ok true) : floorsEq f f'' n = .ok true := by
  unfold floorsEq at *
  induction n with
  | zero => rfl
  | succ n ih =>
    rw [List.range_succ, List.foldl_append] at h h' ⊢
    simp only [List.foldl_cons, List.foldl_nil] at h h' ⊢
    generalize hr : (List.range n).foldl _ _ = r at h ih
    generalize hr' : (List.range n).foldl _ _ = r' at h' ih
    generalize hr'' : (List.range n).foldl _ _ = r'' at ih ⊢
    have e : r = .ok true := by
      match r, h with
      | .ok true, _ => rfl
      | .ok false, h => simp at h
    have e' : r' = .ok true := by
      match r', h' with
      | .ok true, _ => rfl
      | .ok false, h => simp at h
    rw [e] at h
    rw [e'] at h'
    rw [ih e e']
    simp only at h h' ⊢
    cases h1 : f[n]? <;> cases h2 : f'[n]? <;> cases h3 : f''[n]? <;> simp [h1, h2, h3] at h h' ⊢
    rw [h, h']

theorem contactEq_true (r : Nat) (f o : List (Nat × List (List α))) (r' : Nat) (f' o' : List (Nat × List (List α))) :
    contactEq r f o r' f' o' = .ok true ↔ r = r' ∧ o.length = o'.length ∧ floorsEq f f' o.length = .ok true := by
  unfold contactEq
  by_cases h : r = r' <;> by_cases h' : o.length = o'.length <;> simp [h, h']

theorem contactEq_trans (r : Nat) (f o : List (Nat × List (List α))) (r' : Nat) (f' o' : List (Nat × List (List α)))
    (r'' : Nat) (f'' o'' : List (Nat × List (List α))) (h : contactEq r f o r' f' o' = .ok true)
    (h' : contactEq r' f' o' r'' f'' o'' = .ok true) : contactEq r f o r'' f'' o'' = .ok true := by
  rw [contactEq_true] at *
  obtain ⟨h1, h2, h3⟩ := h
  obtain ⟨k1, k2, k3⟩ := h'
  rw [← h2] at k3
  exact ⟨h1.trans k1, h2.trans k2, floorsEq_trans _ _ _ _ h3 k3⟩

theorem sibEq_true (a b : Sib α) : sibEq a b = .ok true ↔
    (a.name = b.name ∧ a.inputSize = b.inputSize ∧ a.inputDer = b.inputDer ∧ a.space = b.space) ∧
    contactEq a.robot a.floors a.objects b.robot b.floors b.objects = .ok true := by
  unfold sibEq
  by_cases h : a.name = b.name ∧ a.inputSize = b.inputSize ∧ a.inputDer = b.inputDer ∧ a.space = b.space
  · simp [h]
  · simp [h]

theorem sibEq_trans (a b c : Sib α) (h : sibEq a b = .ok true) (h' : sibEq b c = .ok true) :
    sibEq a c = .ok true := by
  rw [sibEq_true] at *
  obtain ⟨⟨h1, h2, h3, h4⟩, h5⟩ := h
  obtain ⟨⟨k1, k2, k3, k4⟩, k5⟩ := h'
  exact ⟨⟨h1.trans k1, h2.trans k2, h3.trans k3, h4.trans k4⟩, contactEq_trans _ _ _ _ _ _ _ _ _ h5 k5⟩

/-- What is at the addresses of the siblings of two complements is the same if the addresses are. -/
def Cls.SibOk (a b : Cls α) : Prop :=
  match a, b with
  | .complement p s, .complement p' s' => p = p' → s = s'
  | _, _ => True

def Cls.NotConstant : Cls α → Prop
  | .constant _ => False
  | _ => True

/-- `==` answers true. -/
theorem opEq_true (a b : Obj α) : opEq a b = some true ↔
    baseEq a b = true ∧ ((isExtracted a.cls = true ∧ isExtracted b.cls = true) ∨ memberEq a.cls b.cls = .ok true) := by
  rw [opEq_eq]
  cases ha : isExtracted a.cls <;> cases hb : isExtracted b.cls
  case true.true => simp
  case true.false =>
    have : memberEq a.cls b.cls = .badCast := by rw [memberEq_comm]; exact member_extracted _ _ ha
    simp [this]
  case false.true => simp [member_extracted a.cls b.cls hb]
  case false.false =>
    cases hm : memberEq a.cls b.cls with
    | badCast => simp
    | ub => cases baseEq a b <;> simp
    | ok r => cases r <;> simp

theorem memberEq_trans (a b c : Cls α) (ha : a.NotConstant) (s1 : a.SibOk b) (s2 : b.SibOk c)
    (h : memberEq a b = .ok true) (h' : memberEq b c = .ok true) : memberEq a c = .ok true := by
  cases a <;> cases b <;> first | (simp [memberEq] at h; done) | skip
  all_goals (cases c <;> first | (simp [memberEq] at h'; done) | skip)
  case constant => exact absurd ha id
  case symbolic k r e m k' r' e' m' k'' r'' e'' m'' =>
    by_cases h1 : k = k' <;> by_cases h2 : k' = k'' <;> simp_all [memberEq]
  case generic k r _ _ _ _ m k' r' _ _ _ _ m' k'' r'' _ _ _ _ m'' =>
    by_cases h1 : k = k' <;> by_cases h2 : k' = k'' <;> simp_all [memberEq]
  case contact => exact contactEq_trans _ _ _ _ _ _ _ _ _ h h'
  case manip g r c J K g' r' c' J' K' g'' r'' c'' J'' K'' =>
    have key : ∀ (g r : Nat) (c : Segs) (J K : List (List α)) (g' r' : Nat) (c' : Segs) (J' K' : List (List α)),
        memberEq (.manip g r c J K) (.manip g' r' c' J' K') = .ok true → g = g' ∧ r = r' ∧ c = c' ∧ J = J' ∧ K = K' := by
      intro g r c J K g' r' c' J' K' h
      unfold memberEq at h
      by_cases h1 : g = g' ∧ r = r' ∧ c = c'
      · obtain ⟨rfl, rfl, rfl⟩ := h1
        by_cases h2 : sameSize J J' = true <;> by_cases h3 : J = J' <;> by_cases h4 : sameSize K K' = true <;>
          by_cases h5 : K = K' <;> simp_all
      · have e : (decide (g = g') && decide (r = r') && decide (c = c')) = false := by
          rw [Bool.eq_false_iff]; simpa [and_assoc] using h1
        simp only [e] at h
        simp at h
    obtain ⟨rfl, rfl, rfl, rfl, rfl⟩ := key _ _ _ _ _ _ _ _ _ _ h
    exact h'
  case complement p s p' s' p'' s'' =>
    simp only [memberEq] at h h' ⊢
    by_cases h1 : p = p'
    · have e := s1 h1
      subst h1; subst e
      exact h'
    · by_cases h2 : p' = p''
      · have e := s2 h2
        subst h2; subst e
        exact h
      · rw [if_neg h1] at h
        rw [if_neg h2] at h'
        by_cases h3 : p = p''
        · rw [if_pos h3]
        · rw [if_neg h3]
          exact sibEq_trans _ _ _ h h'
  all_goals simp_all [memberEq]

/-- C46, part. The comparison is transitive.  Missing: constant functions (`C46_constant_refuted`: a constant function is
equal to those of another value, hence not to itself). -/
theorem C46_transitive_partial (a b c : Obj α) (ha : a.cls.NotConstant) (s1 : a.cls.SibOk b.cls) (s2 : b.cls.SibOk c.cls)
    (h : opEq a b = some true) (h' : opEq b c = some true) : opEq a c = some true := by
  rw [opEq_true] at *
  obtain ⟨hb, h⟩ := h
  obtain ⟨hb', h'⟩ := h'
  refine ⟨?_, ?_⟩
  · rw [baseEq_iff] at *
    obtain ⟨h1, h2, h3, h4⟩ := hb
    obtain ⟨k1, k2, k3, k4⟩ := hb'
    exact ⟨h1.trans k1, h2.trans k2, h3.trans k3, h4.trans k4⟩
  · rcases h with ⟨e1, e2⟩ | h
    · rcases h' with ⟨-, e3⟩ | h'
      · exact .inl ⟨e1, e3⟩
      · rw [memberEq_comm, member_extracted _ _ e2] at h'
        exact absurd h' (by simp)
    · rcases h' with ⟨e2, -⟩ | h'
      · rw [member_extracted _ _ e2] at h
        exact absurd h (by simp)
      · exact .inr (memberEq_trans _ _ _ ha s1 s2 h h')

/-- What the comparison misses, for the classes where it misses members: joints and frames of transformations, reference of the
center of mass, objects of contacts, floors beyond the number of objects. -/
def Cls.SameRest : Cls α → Cls α → Prop
  | .generic _ _ j1 j2 f1 f2 _, .generic _ _ j1' j2' f1' f2' _ => j1 = j1' ∧ j2 = j2' ∧ f1 = f1' ∧ f2 = f2'
  | .relativeCom _ _ _ ref _ _, .relativeCom _ _ _ ref' _ _ => ref = ref'
  | .contact _ f o, .contact _ f' o' => o = o' ∧ f.length ≤ o.length ∧ f'.length ≤ o.length
  | .complement p s, .complement p' s' =>
    (p = p' → s = s') ∧ s.objects = s'.objects ∧ s.floors.length ≤ s.objects.length ∧ s'.floors.length ≤ s.objects.length
  | _, _ => False

theorem floorsEq_get (f f' : List (Nat × List (List α))) (n : Nat) (h : floorsEq f f' n = .ok true) :
    ∀ i < n, f[i]? = f'[i]? := by
  unfold floorsEq at h
  induction n with
  | zero => intro i hi; omega
  | succ n ih =>
    rw [List.range_succ, List.foldl_append] at h
    simp only [List.foldl_cons, List.foldl_nil] at h
    generalize hr : (List.range n).foldl _ _ = r at h ih
    have e : r = .ok true := by
      match r, h with
      | .ok true, _ => rfl
      | .ok false, h => simp at h
    rw [e] at h
    intro i hi
    by_cases hin : i < n
    · exact ih e i hin
    · have : i = n := by omega
      subst this
      cases h1 : f[i]? <;> cases h2 : f'[i]? <;> simp [h1, h2] at h ⊢
      exact h

theorem floorsEq_eq (f f' : List (Nat × List (List α))) (n : Nat) (h : floorsEq f f' n = .ok true) (h1 : f.length ≤ n)
    (h2 : f'.length ≤ n) : f = f' := by
  refine List.ext_getElem? fun i => ?_
  by_cases hi : i < n
  · exact floorsEq_get f f' n h i hi
  · rw [List.getElem?_eq_none (by omega), List.getElem?_eq_none (by omega)]

/-- C46, part. Transformations, relative centers of mass, contacts and complements that compare equal have the same values as soon as
the members that are not compared are the same: the refutations below have no other cause. -/
theorem C46_rest_partial [Ring α] (a b : Obj α) (h : a.cls.SameRest b.cls) (he : opEq a b = some true) (w : World α) (x : List α) :
    a.cls.value w x = b.cls.value w x := by
  rw [opEq_eq] at he
  have hx : isExtracted a.cls = false := by cases hc : a.cls <;> rw [hc] at h <;> simp_all [isExtracted, Cls.SameRest]
  simp only [hx, Bool.false_and, Bool.false_eq_true, if_false] at he
  have hm : memberEq a.cls b.cls = .ok true := by
    cases hm : memberEq a.cls b.cls with
    | badCast => rw [hm] at he; simp at he
    | ub => rw [hm] at he; cases hb : baseEq a b <;> simp [hb] at he
    | ok r =>
      rw [hm] at he
      simp at he
      rw [he.1]
  cases ha : a.cls <;> rw [ha] at h hm <;> cases hb : b.cls <;> rw [hb] at h hm
  case generic.generic k r j1 j2 f1 f2 m k' r' j1' j2' f1' f2' m' =>
    obtain ⟨rfl, rfl, rfl, rfl⟩ := h
    unfold memberEq at hm
    by_cases hk : k = k'
    · simp_all [Cls.value]
    · simp [hk] at hm
  case relativeCom.relativeCom =>
    have h' := h
    simp only [Cls.SameRest] at h'
    subst h'
    simp_all [memberEq, Cls.value]
  case contact.contact r f o r' f' o' =>
    obtain ⟨rfl, h1, h2⟩ := h
    simp only [memberEq] at hm
    rw [contactEq_true] at hm
    obtain ⟨rfl, -, h3⟩ := hm
    rw [floorsEq_eq f f' _ h3 h1 h2]
  case complement.complement p s p' s' =>
    obtain ⟨h0, h1, h2, h3⟩ := h
    simp only [memberEq] at hm
    by_cases hp : p = p'
    · rw [Cls.value, Cls.value, h0 hp]
    · rw [if_neg hp, sibEq_true, contactEq_true] at hm
      obtain ⟨-, h4, -, h5⟩ := hm
      rw [Cls.value, Cls.value, h4, h1, floorsEq_eq _ _ _ h5 h2 h3]
  all_goals exact absurd h (by simp [Cls.SameRest])

/-! ## Examples and refutations -/

/-- A function object of `ℤ`. -/
def mk (name : String) (n m : Nat) (c : Cls Int) : Obj Int := ⟨name, n, n, m, c⟩

/-- The world where function 5 doubles its argument, joint 3 is at the position of variables 0, 1, 2, others at the
origin; the value of a contact is the height of the first object, given by its first point, minus that of the first
floor. -/
def world : World Int where
  fn g x := if g = 5 then x.map (2 * ·) else x
  expr _ _ _ x := x
  pos _ j x := if j = 3 then x.take 3 else [0, 0, 0]
  com _ _ x := x.take 3
  config _ g _ x := vsub x g
  dist _ _ _ _ _ _ := [0]
  contact _ f o x :=
    [x.getD 2 0 + ((o.getD 0 (0, [])).2.getD 0 []).getD 2 0 - ((f.getD 0 (0, [])).2.getD 0 []).getD 2 0]
  feet _ _ _ _ _ _ _ _ _ := [0, 0, 0, 0]
  bodies _ _ _ _ x := x.take 1
  stability _ _ _ x := x
  jac _ x := [x]
  manip J := J.flatten
  relative _ _ _ _ _ _ _ _ _ _ x := x
  complement _ f o x := [x.getD 0 0 + ((o.getD 0 (0, [])).2.getD 0 []).getD 0 0 - ((f.getD 0 (0, [])).2.getD 0 []).getD 0 0]

/-- Hypotheses of the theorems: an affine function and a copy of it, and another one. -/
example : let a := mk "f" 2 1 (.affine [[1, 2]] [3])
    let b := mk "f" 2 1 (.affine [[1, 2]] [4])
    a.cls.Compared ∧ a.cls.Reflexive ∧ opEq a a = some true ∧ opEq a b = some false ∧
    a.cls.value world [1, 1] = [6] := ⟨trivial, trivial, by decide⟩

/-- Hypotheses of `C46_rest_partial`: two contacts built with the same surfaces. -/
example : let a := mk "contact" 3 5 (.contact 0 [(0, [[0, 0, 0]])] [(3, [[0, 0, 0]])])
    a.cls.SameRest a.cls ∧ opEq a a = some true ∧ a.cls.value world [0, 0, 1] = [1] := ⟨⟨rfl, by decide, by decide⟩, by decide⟩

/-- C46 is false for constant functions (affine-function.hh:186): not equal to themselves, and equal to those with
another value. -/
theorem C46_constant_refuted : let a := mk "c" 1 1 (.constant [1])
    let b := mk "c" 1 1 (.constant [2])
    opEq a a = some false ∧ opEq a b = some true ∧ a.cls.value world [0] ≠ b.cls.value world [0] := by decide

/-- C46 is false for extracted functions, which have no `isEqual`: two intervals of the same function. -/
theorem C46_extracted_refuted : let a := mk "extracted from f" 1 1 (.extracted 5 false 1)
    let b := mk "extracted from f" 1 1 (.extracted 5 true 3)
    opEq a b = some true ∧ a.cls.value world [0] = [2] ∧ b.cls.value world [0] = [6] := by decide

/-- C46 is false for positions, orientations and transformations: neither the joints nor the frames are compared. -/
theorem C46_generic_refuted :
    let a := mk "position" 3 3 (.generic 1 0 0 3 [0, 0, 0] [0, 0, 0] [true, true, true])
    let b := mk "position" 3 3 (.generic 1 0 0 4 [0, 0, 0] [0, 0, 8] [true, true, true])
    opEq a b = some true ∧ a.cls.value world [1, 2, 3] = [1, 2, 3] ∧ b.cls.value world [1, 2, 3] = [0, 0, 8] := by
  decide

/-- C46 is false for the relative center of mass: the reference is not compared. -/
theorem C46_relative_com_refuted :
    let a := mk "com" 3 3 (.relativeCom 0 0 4 [0, 0, 0] [true, true, true] true)
    let b := mk "com" 3 3 (.relativeCom 0 0 4 [0, 0, 1] [true, true, true] true)
    opEq a b = some true ∧ a.cls.value world [1, 2, 3] = [1, 2, 3] ∧ b.cls.value world [1, 2, 3] = [1, 2, 2] := by
  decide

/-- C46 is false for contacts: the floors are compared twice instead of the objects. -/
theorem C46_contact_refuted :
    let a := mk "contact" 3 5 (.contact 0 [(0, [[0, 0, 0]])] [(3, [[0, 0, 0]])])
    let b := mk "contact" 3 5 (.contact 0 [(0, [[0, 0, 0]])] [(3, [[0, 0, 4]])])
    opEq a b = some true ∧ a.cls.value world [0, 0, 1] = [1] ∧ b.cls.value world [0, 0, 1] = [5] := by decide

/-- C46: the comparison of a contact with itself reads out of a vector if there are more objects than floors. -/
theorem C46_contact_undefined_refuted :
    let a := mk "contact" 3 5 (.contact 0 [(0, [[0, 0, 0]])] [(3, [[0, 0, 0]]), (3, [[0, 1, 0]])])
    opEq a a = none := by decide

/-- C46: the comparison of two sets of the same functions depends on where they were evaluated last. -/
theorem C46_set_history_refuted : let a := mk "Stack" 1 1 (.set [5] [[0]])
    opEq a a = some true ∧ opEq (a.evaluated world [1]) (a.evaluated world [2]) = some false ∧
    ∀ x, (a.evaluated world [1]).cls.value world x = (a.evaluated world [2]).cls.value world x := by
  refine ⟨by decide, by decide, fun x => rfl⟩

/-- C46: the comparison of two manipulabilities of the same function depends on where they were evaluated last, and is
undefined if only one of them was: the buffers are compared (manipulability.hh:75-76), which have other dimensions at
construction (manipulability.cc:37-43) than after an evaluation. -/
theorem C46_manipulability_history_refuted :
    let a := mk "manipulability" 3 1 (.manip 5 0 [⟨0, 2⟩] [[0, 0, 0]] [[0]])
    opEq (a.evaluated world [1, 2, 3]) (a.evaluated world [1, 2, 3]) = some true ∧
    opEq (a.evaluated world [1, 2, 3]) (a.evaluated world [2, 2, 3]) = some false ∧
    opEq a (a.evaluated world [0, 0, 0]) = none ∧
    ∀ x, (a.evaluated world [1, 2, 3]).cls.value world x = (a.evaluated world [2, 2, 3]).cls.value world x := by
  refine ⟨by decide, by decide, by decide, fun x => rfl⟩

/-- C46: the comparison of two distances between the same bodies depends on where they were evaluated last. -/
theorem C46_bodies_history_refuted :
    let a := mk "distance" 3 1 (.bodies 0 1 2 [true] [0])
    opEq a a = some true ∧ opEq (a.evaluated world [1, 0, 0]) (a.evaluated world [2, 0, 0]) = some false ∧
    ∀ x, (a.evaluated world [1, 0, 0]).cls.value world x = (a.evaluated world [2, 0, 0]).cls.value world x := by
  refine ⟨by decide, by decide, fun x => rfl⟩

/-- C46 is false for the complements of contacts, which compare the contacts. -/
theorem C46_complement_refuted :
    let f : List (Nat × List (List Int)) := [(0, [[0, 0, 0]])]
    let a := mk "contact/complement" 3 3 (.complement 7 ⟨"contact", 3, 3, 5, 0, f, [(3, [[0, 0, 0]])]⟩)
    let b := mk "contact/complement" 3 3 (.complement 8 ⟨"contact", 3, 3, 5, 0, f, [(3, [[4, 0, 0]])]⟩)
    a.cls.SibOk b.cls ∧ opEq a b = some true ∧ a.cls.value world [1, 0, 0] = [1] ∧
    b.cls.value world [1, 0, 0] = [5] := by
  refine ⟨fun h => absurd h (by decide), by decide, by decide, by decide⟩

/-- Classes without buffers among the members they compare. -/
def Cls.Stateless : Cls α → Prop
  | .set .. | .manip .. | .bodies .. => False
  | _ => True

omit [DecidableEq α] in
theorem evaluated_eq [Ring α] (w : World α) (x : List α) (a : Obj α) (h : a.cls.Stateless) : a.evaluated w x = a := by
  unfold Obj.evaluated
  cases hc : a.cls <;> rw [hc] at h <;> first | rfl | exact absurd h id

/-- C46, part. What `==` answers does not depend on the evaluations done before.  Missing: sets of functions,
manipulabilities and distances between bodies (`C46_set_history_refuted`, `C46_manipulability_history_refuted`,
`C46_bodies_history_refuted`). -/
theorem C46_history_partial [Ring α] (w : World α) (xs ys : List (List α)) (a b : Obj α) (ha : a.cls.Stateless)
    (hb : b.cls.Stateless) :
    opEq (xs.foldl (fun a x => a.evaluated w x) a) (ys.foldl (fun b x => b.evaluated w x) b) = opEq a b := by
  have key : ∀ (xs : List (List α)) (a : Obj α), a.cls.Stateless → xs.foldl (fun a x => a.evaluated w x) a = a := by
    intro xs
    induction xs with
    | nil => intro a _; rfl
    | cons x xs ih =>
      intro a h
      rw [List.foldl_cons, evaluated_eq w x a h]
      exact ih a h
  rw [key xs a ha, key ys b hb]

example : (mk "f" 2 1 (.affine [[1, 2]] [3])).cls.Stateless := trivial

/-- Hypotheses of `C46_transitive_partial`: three complements, two of which share their contact. -/
example : let f : List (Nat × List (List Int)) := [(0, [[0, 0, 0]])]
    let s : Sib Int := ⟨"contact", 3, 3, 5, 0, f, [(3, [[0, 0, 0]])]⟩
    let a := mk "contact/complement" 3 3 (.complement 7 s)
    let b := mk "contact/complement" 3 3 (.complement 8 s)
    a.cls.NotConstant ∧ a.cls.SibOk b.cls ∧ b.cls.SibOk a.cls ∧ opEq a b = some true ∧ opEq b a = some true := by
  refine ⟨trivial, fun _ => rfl, fun _ => rfl, by decide, by decide⟩

end Hpp.FnEq
