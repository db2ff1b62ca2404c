import Verif.Spec.Memory
import Mathlib.Tactic.IntervalCases

/-!
# C101: calls with overlapping references

The value-based functions of the rest of the model describe what the mutating methods do in memory, also when an argument is the object
itself or a part of it, in whatever order the coefficients are processed.
-/

set_option autoImplicit false

open Classical

noncomputable section
namespace Kindr.Spec
open Kindr

/-- Memory in which the `n` cells from `a` on hold `f 0, …, f (n - 1)`. -/
def fill (a n : ℕ) (f : ℕ → ℝ) (m : Mem) : Mem := fun x => if a ≤ x ∧ x < a + n then f (x - a) else m x

theorem fill_in {a n i : ℕ} (f : ℕ → ℝ) (m : Mem) (h : i < n) : fill a n f m (a + i) = f i := by
  unfold fill; rw [if_pos ⟨by omega, by omega⟩]; congr 1; omega

theorem fill_out {a n x : ℕ} (f : ℕ → ℝ) (m : Mem) (h : ¬ (a ≤ x ∧ x < a + n)) : fill a n f m x = m x := if_neg h

theorem coeffLoop_aux (a : ℕ) (g : ℕ → Mem → ℝ) (m₀ : Mem) (o : List ℕ) :
    ∀ m : Mem, o.Nodup → (∀ i ∈ o, m (a + i) = m₀ (a + i)) →
      (∀ i ∈ o, ∀ m' : Mem, m' (a + i) = m₀ (a + i) → (∀ x, ¬ (∃ j, x = a + j ∧ m' x ≠ m x ∧ j ∈ o) → m' x = m x) → g i m' = g i m₀) →
      (∀ i ∈ o, coeffLoop a g o m (a + i) = g i m₀) ∧ (∀ x, (∀ i ∈ o, x ≠ a + i) → coeffLoop a g o m x = m x) := by
  induction o with
  | nil => intro m _ _ _; exact ⟨fun i hi => (List.not_mem_nil hi).elim, fun x _ => rfl⟩
  | cons i is ih =>
    intro m hnd hm hg
    have hgi : g i m = g i m₀ := hg i (List.mem_cons_self ..) m (hm i (List.mem_cons_self ..)) (fun x _ => rfl)
    obtain ⟨hi, hnd'⟩ := List.nodup_cons.mp hnd
    have key := ih (Function.update m (a + i) (g i m)) hnd' (by
      intro j hj
      rw [Function.update_of_ne (by rintro h; exact hi ((by omega : j = i) ▸ hj))]
      exact hm j (List.mem_cons_of_mem _ hj)) (by
      intro j hj m' h1 h2
      refine hg j (List.mem_cons_of_mem _ hj) m' h1 ?_
      intro x hx
      by_contra hne
      by_cases hxi : x = a + i
      · exact hx ⟨i, hxi, hne, List.mem_cons_self ..⟩
      · have := h2 x (by
          rintro ⟨k, hk1, hk2, hk3⟩
          exact hx ⟨k, hk1, hne, List.mem_cons_of_mem _ hk3⟩)
        rw [Function.update_of_ne hxi] at this
        exact hne this)
    refine ⟨?_, ?_⟩
    · intro j hj
      rcases List.mem_cons.mp hj with rfl | hj
      · show coeffLoop a g is (Function.update m (a + j) (g j m)) (a + j) = _
        rw [key.2 (a + j) (by intro k hk h; exact hi ((by omega : k = j) ▸ hk)), Function.update_self, hgi]
      · exact key.1 j hj
    · intro x hx
      show coeffLoop a g is (Function.update m (a + i) (g i m)) x = _
      rw [key.2 x (fun k hk => hx k (List.mem_cons_of_mem _ hk)), Function.update_of_ne (hx i (List.mem_cons_self ..))]

theorem IsOrder.mem {n : ℕ} {o : List ℕ} (h : IsOrder n o) (i : ℕ) : i ∈ o ↔ i < n := by
  rw [List.Perm.mem_iff h, List.mem_range]

theorem IsOrder.nodup {n : ℕ} {o : List ℕ} (h : IsOrder n o) : o.Nodup := (List.Perm.nodup_iff h).mpr List.nodup_range

/-- A coefficient-wise loop is a simultaneous assignment if each new coefficient depends only on the old one and on cells outside the target. -/
theorem coeffLoop_eq {n a : ℕ} {g : ℕ → Mem → ℝ} {o : List ℕ} (h : IsOrder n o) (m : Mem)
    (hg : ∀ i < n, ∀ m' : Mem, m' (a + i) = m (a + i) → OnlyChanges n a m m' → g i m' = g i m) :
    coeffLoop a g o m = fill a n (fun i => g i m) m := by
  obtain ⟨h1, h2⟩ := coeffLoop_aux a g m o m h.nodup (fun _ _ => rfl) (by
    intro i hi m' e1 e2
    refine hg i ((h.mem i).mp hi) m' e1 ?_
    intro x hx
    refine e2 x ?_
    rintro ⟨j, rfl, -, hj⟩
    exact hx ⟨by omega, by have := (h.mem j).mp hj; omega⟩)
  funext x
  by_cases hx : a ≤ x ∧ x < a + n
  · obtain ⟨i, rfl⟩ : ∃ i, x = a + i := ⟨x - a, by omega⟩
    rw [h1 i ((h.mem i).mpr (by omega)), fill_in _ _ (by omega)]
  · rw [h2 x (by intro i hi e; have := (h.mem i).mp hi; exact hx ⟨by omega, by omega⟩), fill_out _ _ hx]

theorem onlyChanges_fill (a n : ℕ) (f : ℕ → ℝ) (m : Mem) : OnlyChanges n a m (fill a n f m) := fun _ hx => fill_out _ _ hx

theorem src_eq {n a b i : ℕ} {m m' : Mem} (hab : b = a ∨ Apart n a n b) (hi : i < n) (e1 : m' (a + i) = m (a + i))
    (e2 : OnlyChanges n a m m') : m' (b + i) = m (b + i) := by
  rcases hab with rfl | h
  · exact e1
  · refine e2 _ ?_
    unfold Apart at h; omega

theorem memAdd_eq {n a b : ℕ} {o : List ℕ} (h : IsOrder n o) (hab : b = a ∨ Apart n a n b) (m : Mem) :
    memAdd a b o m = fill a n (fun i => m (a + i) + m (b + i)) m :=
  coeffLoop_eq h m fun _ hi _ e1 e2 => by rw [e1, src_eq hab hi e1 e2]

theorem memSub_eq {n a b : ℕ} {o : List ℕ} (h : IsOrder n o) (hab : b = a ∨ Apart n a n b) (m : Mem) :
    memSub a b o m = fill a n (fun i => m (a + i) - m (b + i)) m :=
  coeffLoop_eq h m fun _ hi _ e1 e2 => by rw [e1, src_eq hab hi e1 e2]

theorem memCopy_eq {n a b : ℕ} {o : List ℕ} (h : IsOrder n o) (hab : b = a ∨ Apart n a n b) (m : Mem) :
    memCopy a b o m = fill a n (fun i => m (b + i)) m :=
  coeffLoop_eq h m fun _ hi _ e1 e2 => by rw [src_eq hab hi e1 e2]

theorem memMul_eq {n a : ℕ} {o : List ℕ} (h : IsOrder n o) (c : ℝ) (m : Mem) :
    memMul a c o m = fill a n (fun i => m (a + i) * c) m := coeffLoop_eq h m fun _ _ _ e1 _ => by rw [e1]

theorem memDiv_eq {n a : ℕ} {o : List ℕ} (h : IsOrder n o) (c : ℝ) (m : Mem) :
    memDiv a c o m = fill a n (fun i => m (a + i) / c) m := coeffLoop_eq h m fun _ _ _ e1 _ => by rw [e1]

theorem memZero_eq {n a : ℕ} {o : List ℕ} (h : IsOrder n o) (m : Mem) :
    memZero a o m = fill a n (fun _ => 0) m := coeffLoop_eq h m fun _ _ _ _ _ => rfl

theorem loadN_fill (t : PhysicalType) (n a : ℕ) (f : ℕ → ℝ) (m : Mem) : loadN t n (fill a n f m) a = ⟨fun i => f i⟩ := by
  unfold loadN; congr 1; funext i; exact fill_in f m i.2

theorem memNormalize_eq {n a : ℕ} {o : List ℕ} (h : IsOrder n o) (m : Mem) (t : PhysicalType) :
    ∃ f, memNormalize n a o m = fill a n f m ∧ (⟨fun i => f i⟩ : Vec t n) = (loadN t n m a).normalized := by
  have hz : (loadN t n m a).squaredNorm = ∑ i : Fin n, m (a + i) * m (a + i) := rfl
  by_cases h0 : 0 < ∑ i : Fin n, m (a + i) * m (a + i)
  · refine ⟨fun i => m (a + i) / Real.sqrt (∑ i : Fin n, m (a + i) * m (a + i)), ?_, ?_⟩
    · unfold memNormalize
      simp only [if_pos h0]
      exact memDiv_eq h _ m
    · unfold Vec.normalized
      rw [if_pos (hz ▸ h0), hz]
      rfl
  · refine ⟨fun i => m (a + i), ?_, ?_⟩
    · unfold memNormalize
      simp only [if_neg h0]
      funext x
      by_cases hx : a ≤ x ∧ x < a + n
      · obtain ⟨i, rfl⟩ : ∃ i, x = a + i := ⟨x - a, by omega⟩
        rw [fill_in _ _ (by omega)]
      · rw [fill_out _ _ hx]
    · unfold Vec.normalized
      rw [if_neg (hz ▸ h0)]
      rfl

/-- **C101, vectors.**  For a vector of any dimension at address `a`, and any order of the coefficient loop: `v += w`, `v -= w` and `v = w` give the
sum, the difference and the copy of the old values when `w` is `v` itself or lies elsewhere; `v *= x` and `v /= x` use the old value of `x`,
also when `x` is a component of `v`; `setZero` and `normalize` do what the value-based functions say.  Nothing outside `v` changes. -/
theorem C101_vectors (t : PhysicalType) (n a : ℕ) (o : List ℕ) (h : IsOrder n o) (m : Mem) :
    (∀ b, b = a ∨ Apart n a n b →
      loadN t n (memAdd a b o m) a = (loadN t n m a).addAssign (loadN t n m b) ∧ OnlyChanges n a m (memAdd a b o m) ∧
      loadN t n (memSub a b o m) a = (loadN t n m a).subAssign (loadN t n m b) ∧ OnlyChanges n a m (memSub a b o m) ∧
      loadN t n (memCopy a b o m) a = loadN t n m b ∧ OnlyChanges n a m (memCopy a b o m)) ∧
    (∀ c, loadN t n (memMulElem a c o m) a = (loadN t n m a).mulAssign (m c) ∧ OnlyChanges n a m (memMulElem a c o m) ∧
      loadN t n (memDivElem a c o m) a = (loadN t n m a).divAssign (m c) ∧ OnlyChanges n a m (memDivElem a c o m)) ∧
    (loadN t n (memZero a o m) a = Vec.Zero ∧ OnlyChanges n a m (memZero a o m)) ∧
    (loadN t n (memNormalize n a o m) a = (loadN t n m a).normalized ∧ OnlyChanges n a m (memNormalize n a o m)) := by
  refine ⟨fun b hab => ?_, fun c => ?_, ?_, ?_⟩
  · rw [memAdd_eq h hab, memSub_eq h hab, memCopy_eq h hab]
    simp only [loadN_fill]
    exact ⟨rfl, onlyChanges_fill _ _ _ _, rfl, onlyChanges_fill _ _ _ _, rfl, onlyChanges_fill _ _ _ _⟩
  · unfold memMulElem memDivElem
    rw [memMul_eq h, memDiv_eq h]
    simp only [loadN_fill]
    exact ⟨rfl, onlyChanges_fill _ _ _ _, rfl, onlyChanges_fill _ _ _ _⟩
  · rw [memZero_eq h, loadN_fill]
    exact ⟨rfl, onlyChanges_fill _ _ _ _⟩
  · obtain ⟨f, hf, e⟩ := memNormalize_eq h m t
    rw [hf, loadN_fill, e]
    exact ⟨rfl, onlyChanges_fill _ _ _ _⟩

/-! ## Refinement -/

theorem loadV_congr {m m' : Mem} {a : ℕ} (h : ∀ i < 3, m' (a + i) = m (a + i)) : loadV m' a = loadV m a := by
  unfold loadV
  have h0 := h 0 (by omega); have h1 := h 1 (by omega); have h2 := h 2 (by omega)
  rw [Nat.add_zero] at h0
  rw [h0, h1, h2]

theorem loadR_congr {m m' : Mem} {a : ℕ} (k : Kind) (h : ∀ i < repSize k, m' (a + i) = m (a + i)) : loadR m' a k = loadR m a k := by
  cases k <;> simp only [repSize] at h
  all_goals
    have h0 := h 0 (by omega); have h1 := h 1 (by omega); have h2 := h 2 (by omega)
    rw [Nat.add_zero] at h0
    try have h3 := h 3 (by omega)
    try have h4 := h 4 (by omega)
    try have h5 := h 5 (by omega)
    try have h6 := h 6 (by omega)
    try have h7 := h 7 (by omega)
    try have h8 := h 8 (by omega)
    simp only [loadR, loadV, *]

theorem loadW_congr {m m' : Mem} {a : ℕ} (h : ∀ i < 6, m' (a + i) = m (a + i)) : loadW m' a = loadW m a := by
  unfold loadW
  congr 2 <;> funext i
  · exact h i (by omega)
  · have := h (3 + i) (by omega)
    rwa [← Nat.add_assoc] at this

theorem loadP_congr {m m' : Mem} {a : ℕ} (k : Kind) (h : ∀ i < 3 + repSize k, m' (a + i) = m (a + i)) : loadP m' a k = loadP m a k := by
  unfold loadP
  have h' : ∀ i < repSize k, m' (a + 3 + i) = m (a + 3 + i) := fun i hi => by
    rw [Nat.add_assoc]; exact h (3 + i) (by omega)
  rw [loadV_congr fun i hi => h i (by omega), loadR_congr k h']

theorem repStore_length (k : Kind) (r : Rep k) : (repStore k r).length = repSize k := by cases k <;> rfl

theorem loadR_fill (k : Kind) (r : Rep k) (a : ℕ) (m : Mem) :
    loadR (fill a (repSize k) (fun i => (repStore k r).getD i 0) m) a k = r := by
  have key : ∀ i < repSize k, fill a (repSize k) (fun i => (repStore k r).getD i 0) m (a + i) = (repStore k r).getD i 0 :=
    fun i hi => fill_in _ _ hi
  generalize fill a (repSize k) (fun i => (repStore k r).getD i 0) m = m' at key
  cases k <;> simp only [repSize] at key
  all_goals
    have h0 := key 0 (by omega); have h1 := key 1 (by omega); have h2 := key 2 (by omega)
    rw [Nat.add_zero] at h0
    try have h3 := key 3 (by omega)
    try have h4 := key 4 (by omega)
    try have h5 := key 5 (by omega)
    try have h6 := key 6 (by omega)
    try have h7 := key 7 (by omega)
    try have h8 := key 8 (by omega)
    simp only [loadR, loadV, *]
    rfl

theorem loadV_fill (a n : ℕ) (hn : 3 ≤ n) (f : ℕ → ℝ) (m : Mem) : loadV (fill a n f m) a = ⟨f 0, f 1, f 2⟩ := by
  unfold loadV
  have h0 : fill a n f m (a + 0) = f 0 := fill_in f m (by omega)
  rw [Nat.add_zero] at h0
  rw [h0, fill_in f m (by omega), fill_in f m (by omega)]

theorem fill_apart {a n n' b : ℕ} (f : ℕ → ℝ) (m : Mem) (h : Apart n a n' b) : ∀ i < n', fill a n f m (b + i) = m (b + i) := by
  intro i hi
  refine fill_out f m ?_
  unfold Apart at h; omega

section
variable {L : Layout} (hL : Separate L)
include hL

theorem sep {b b' : Block} (h : b ≠ b') {i n j n' : ℕ} (hi : i + n ≤ L.size b) (hj : j + n' ≤ L.size b') :
    Apart n (L.base b + i) n' (L.base b' + j) := by
  have := hL b b' h
  unfold Apart; omega

/-- Writing inside one block leaves the values of the others. -/
theorem vec_fill (b : Block) (i n : ℕ) (f : ℕ → ℝ) (m : Mem) (hi : i + n ≤ L.size b) (j : ℕ) (h : b ≠ .vec j) :
    (values L (fill (L.base b + i) n f m)).vec j = (values L m).vec j :=
  loadV_congr (fill_apart f m (sep hL (j := 0) (n' := 3) h hi (by simp [Layout.size])))

theorem wrench_fill (b : Block) (i n : ℕ) (f : ℕ → ℝ) (m : Mem) (hi : i + n ≤ L.size b) (j : ℕ) (h : b ≠ .wrench j) :
    (values L (fill (L.base b + i) n f m)).wrench j = (values L m).wrench j :=
  loadW_congr (fill_apart f m (sep hL (j := 0) (n' := 6) h hi (by simp [Layout.size])))

theorem rot_fill (b : Block) (i n : ℕ) (f : ℕ → ℝ) (m : Mem) (hi : i + n ≤ L.size b) (j : ℕ) (h : b ≠ .rot j) :
    (values L (fill (L.base b + i) n f m)).rot j = (values L m).rot j :=
  loadR_congr _ (fill_apart f m (sep hL (j := 0) (n' := repSize (L.kind j)) h hi (by simp [Layout.size])))

theorem pose_fill (b : Block) (i n : ℕ) (f : ℕ → ℝ) (m : Mem) (hi : i + n ≤ L.size b) (j : ℕ) (h : b ≠ .pose j) :
    (values L (fill (L.base b + i) n f m)).pose j = (values L m).pose j :=
  loadP_congr _ (fill_apart f m (sep hL (j := 0) (n' := 3 + repSize L.poseKind) h hi (by simp [Layout.size])))

theorem values_tmp (n : ℕ) (hn : n ≤ 36) (f : ℕ → ℝ) (m : Mem) : values L (fill (L.base .tmp) n f m) = values L m := by
  have h : 0 + n ≤ L.size .tmp := by simpa [Layout.size] using hn
  apply Values.ext <;> funext j
  · exact vec_fill hL .tmp 0 n f m h j (by simp)
  · exact wrench_fill hL .tmp 0 n f m h j (by simp)
  · exact rot_fill hL .tmp 0 n f m h j (by simp)
  · exact pose_fill hL .tmp 0 n f m h j (by simp)

theorem values_setV (x : VRef) (f : ℕ → ℝ) (m : Mem) :
    values L (fill (L.vaddr x) 3 f m) = (values L m).setV x ⟨f 0, f 1, f 2⟩ := by
  cases x with
  | var i =>
    have h : 0 + 3 ≤ L.size (.vec i) := by simp [Layout.size]
    apply Values.ext <;> funext j
    · by_cases e : i = j
      · subst e
        refine (loadV_fill _ 3 le_rfl f m).trans ?_
        simp [Values.setV]
      · refine (vec_fill hL (.vec i) 0 3 f m h j (by simpa using e)).trans ?_
        simp [Values.setV, Function.update_of_ne (Ne.symm e)]
    · exact wrench_fill hL (.vec i) 0 3 f m h j (by simp)
    · exact rot_fill hL (.vec i) 0 3 f m h j (by simp)
    · exact pose_fill hL (.vec i) 0 3 f m h j (by simp)
  | force i =>
    have h : 0 + 3 ≤ L.size (.wrench i) := by simp [Layout.size]
    apply Values.ext <;> funext j
    · exact vec_fill hL (.wrench i) 0 3 f m h j (by simp)
    · by_cases e : i = j
      · subst e
        simp only [Values.setV, Function.update_self, Wrench.setForce]
        apply Wrench.ext <;> apply Vec.ext <;> funext l
        · refine (fill_in f m l.2).trans ?_
          fin_cases l <;> rfl
        · refine fill_out f m ?_
          simp only [Layout.vaddr]; omega
      · refine (wrench_fill hL (.wrench i) 0 3 f m h j (by simpa using e)).trans ?_
        simp [Values.setV, Function.update_of_ne (Ne.symm e)]
    · exact rot_fill hL (.wrench i) 0 3 f m h j (by simp)
    · exact pose_fill hL (.wrench i) 0 3 f m h j (by simp)
  | torque i =>
    have h : 3 + 3 ≤ L.size (.wrench i) := by simp [Layout.size]
    apply Values.ext <;> funext j
    · exact vec_fill hL (.wrench i) 3 3 f m h j (by simp)
    · by_cases e : i = j
      · subst e
        simp only [Values.setV, Function.update_self, Wrench.setTorque]
        apply Wrench.ext <;> apply Vec.ext <;> funext l
        · refine fill_out f m ?_
          simp only [Layout.vaddr]; omega
        · refine (fill_in f m l.2).trans ?_
          fin_cases l <;> rfl
      · refine (wrench_fill hL (.wrench i) 3 3 f m h j (by simpa using e)).trans ?_
        simp [Values.setV, Function.update_of_ne (Ne.symm e)]
    · exact rot_fill hL (.wrench i) 3 3 f m h j (by simp)
    · exact pose_fill hL (.wrench i) 3 3 f m h j (by simp)
  | position i =>
    have h : 0 + 3 ≤ L.size (.pose i) := by simp [Layout.size]
    apply Values.ext <;> funext j
    · exact vec_fill hL (.pose i) 0 3 f m h j (by simp)
    · exact wrench_fill hL (.pose i) 0 3 f m h j (by simp)
    · exact rot_fill hL (.pose i) 0 3 f m h j (by simp)
    · by_cases e : i = j
      · subst e
        simp only [Values.setV, Function.update_self]
        apply Pose.ext
        · exact loadV_fill _ 3 le_rfl f m
        · refine loadR_congr _ fun l hl => fill_out f m ?_
          simp only [Layout.vaddr]; omega
      · refine (pose_fill hL (.pose i) 0 3 f m h j (by simpa using e)).trans ?_
        simp [Values.setV, Function.update_of_ne (Ne.symm e)]

theorem values_setRvar (i : ℕ) (r : Rep (L.kind i)) (m : Mem) :
    values L (fill (L.base (.rot i)) (repSize (L.kind i)) (fun l => (repStore _ r).getD l 0) m) = (values L m).setR (.var i) r := by
  have h : 0 + repSize (L.kind i) ≤ L.size (.rot i) := by simp [Layout.size]
  apply Values.ext <;> funext j
  · exact vec_fill hL (.rot i) 0 _ _ m h j (by simp)
  · exact wrench_fill hL (.rot i) 0 _ _ m h j (by simp)
  · by_cases e : i = j
    · subst e
      refine (loadR_fill _ r _ m).trans ?_
      simp [Values.setR]
    · refine (rot_fill hL (.rot i) 0 _ _ m h j (by simpa using e)).trans ?_
      simp [Values.setR, Function.update_of_ne (Ne.symm e)]
  · exact pose_fill hL (.rot i) 0 _ _ m h j (by simp)

theorem values_setRpose (i : ℕ) (r : Rep L.poseKind) (m : Mem) :
    values L (fill (L.base (.pose i) + 3) (repSize L.poseKind) (fun l => (repStore _ r).getD l 0) m)
      = (values L m).setR (.ofPose i) r := by
  have h : 3 + repSize L.poseKind ≤ L.size (.pose i) := by simp [Layout.size]
  apply Values.ext <;> funext j
  · exact vec_fill hL (.pose i) 3 _ _ m h j (by simp)
  · exact wrench_fill hL (.pose i) 3 _ _ m h j (by simp)
  · exact rot_fill hL (.pose i) 3 _ _ m h j (by simp)
  · by_cases e : i = j
    · subst e
      simp only [Values.setR, Function.update_self]
      apply Pose.ext
      · refine loadV_congr fun l hl => fill_out _ m ?_
        omega
      · exact loadR_fill _ r _ m
    · refine (pose_fill hL (.pose i) 3 _ _ m h j (by simpa using e)).trans ?_
      simp [Values.setR, Function.update_of_ne (Ne.symm e)]

theorem values_setW (i : ℕ) (f : ℕ → ℝ) (m : Mem) :
    values L (fill (L.base (.wrench i)) 6 f m) = (values L m).setW i ⟨⟨fun j => f j⟩, ⟨fun j => f (3 + j)⟩⟩ := by
  have h : 0 + 6 ≤ L.size (.wrench i) := by simp [Layout.size]
  apply Values.ext <;> funext j
  · exact vec_fill hL (.wrench i) 0 6 f m h j (by simp)
  · by_cases e : i = j
    · subst e
      simp only [Values.setW, Function.update_self]
      apply Wrench.ext <;> apply Vec.ext <;> funext l
      · exact fill_in f m (by omega)
      · have := fill_in (a := L.base (.wrench i)) (n := 6) (i := 3 + l) f m (by omega)
        rwa [← Nat.add_assoc] at this
    · refine (wrench_fill hL (.wrench i) 0 6 f m h j (by simpa using e)).trans ?_
      simp [Values.setW, Function.update_of_ne (Ne.symm e)]
  · exact rot_fill hL (.wrench i) 0 6 f m h j (by simp)
  · exact pose_fill hL (.wrench i) 0 6 f m h j (by simp)

theorem values_setP (i : ℕ) (T : Pose L.poseKind) (m : Mem) :
    values L (fill (L.base (.pose i)) (3 + repSize L.poseKind) (fun l => (poseStore _ T).getD l 0) m) = (values L m).setP i T := by
  have h : 0 + (3 + repSize L.poseKind) ≤ L.size (.pose i) := by simp [Layout.size]
  apply Values.ext <;> funext j
  · exact vec_fill hL (.pose i) 0 _ _ m h j (by simp)
  · exact wrench_fill hL (.pose i) 0 _ _ m h j (by simp)
  · exact rot_fill hL (.pose i) 0 _ _ m h j (by simp)
  · by_cases e : i = j
    · subst e
      simp only [Values.setP, Function.update_self]
      apply Pose.ext
      · refine (loadV_fill _ _ (by omega) _ m).trans ?_
        rfl
      · refine Eq.trans ?_ (loadR_fill _ T.rotation (L.base (.pose i) + 3) m)
        refine loadR_congr _ fun l hl => ?_
        rw [fill_in _ _ hl, Nat.add_assoc, fill_in _ _ (by omega)]
        unfold poseStore
        rw [Nat.add_comm]
        rfl
    · refine (pose_fill hL (.pose i) 0 _ _ m h j (by simpa using e)).trans ?_
      simp [Values.setP, Function.update_of_ne (Ne.symm e)]

omit hL in
theorem getV_values (x : VRef) (m : Mem) : (values L m).getV x = loadV m (L.vaddr x) := by
  cases x <;> rfl

theorem vaddr_tmp (x : VRef) (n : ℕ) (hn : n ≤ 36) : Apart 3 (L.vaddr x) n (L.base .tmp) := by
  have hn' : 0 + n ≤ L.size .tmp := by simpa [Layout.size] using hn
  cases x with
  | var i => exact sep hL (b := .vec i) (i := 0) (by simp) (by simp [Layout.size]) hn'
  | force i => exact sep hL (b := .wrench i) (i := 0) (by simp) (by simp [Layout.size]) hn'
  | torque i => exact sep hL (b := .wrench i) (i := 3) (by simp) (by simp [Layout.size]) hn'
  | position i => exact sep hL (b := .pose i) (i := 0) (by simp) (by simp [Layout.size]) hn'

theorem raddr_tmp (r : RRef) (n : ℕ) (hn : n ≤ 36) : Apart (repSize (L.rkind r)) (L.raddr r) n (L.base .tmp) := by
  have hn' : 0 + n ≤ L.size .tmp := by simpa [Layout.size] using hn
  cases r with
  | var i => exact sep hL (b := .rot i) (i := 0) (by simp) (by simp [Layout.size, Layout.rkind]) hn'
  | ofPose i => exact sep hL (b := .pose i) (i := 3) (by simp) (by simp [Layout.size, Layout.rkind]) hn'

theorem vaddr_vaddr (x y : VRef) : L.vaddr y = L.vaddr x ∨ Apart 3 (L.vaddr x) 3 (L.vaddr y) := by
  have hv := fun i => show L.size (.vec i) = 3 from rfl
  have hw := fun i => show L.size (.wrench i) = 6 from rfl
  have hp := fun i => show L.size (.pose i) = 3 + repSize L.poseKind from rfl
  have key : ∀ b b' : Block, b = b' ∨ L.base b + L.size b ≤ L.base b' ∨ L.base b' + L.size b' ≤ L.base b := by
    intro b b'
    by_cases e : b = b'
    · exact .inl e
    · exact .inr (hL b b' e)
  unfold Apart
  cases x with
  | var i => cases y with
    | var j => rcases key (.vec i) (.vec j) with e | h
               · injection e with e; subst e; exact .inl rfl
               · simp only [Layout.vaddr]; rw [hv, hv] at h; omega
    | force j => have h := hL (.vec i) (.wrench j) (by simp); rw [hv, hw] at h; simp only [Layout.vaddr]; omega
    | torque j => have h := hL (.vec i) (.wrench j) (by simp); rw [hv, hw] at h; simp only [Layout.vaddr]; omega
    | position j => have h := hL (.vec i) (.pose j) (by simp); rw [hv, hp] at h; simp only [Layout.vaddr]; omega
  | force i => cases y with
    | var j => have h := hL (.wrench i) (.vec j) (by simp); rw [hv, hw] at h; simp only [Layout.vaddr]; omega
    | force j => rcases key (.wrench i) (.wrench j) with e | h
                 · injection e with e; subst e; exact .inl rfl
                 · simp only [Layout.vaddr]; rw [hw, hw] at h; omega
    | torque j => rcases key (.wrench i) (.wrench j) with e | h
                  · injection e with e; subst e; simp only [Layout.vaddr]; omega
                  · simp only [Layout.vaddr]; rw [hw, hw] at h; omega
    | position j => have h := hL (.wrench i) (.pose j) (by simp); rw [hw, hp] at h; simp only [Layout.vaddr]; omega
  | torque i => cases y with
    | var j => have h := hL (.wrench i) (.vec j) (by simp); rw [hv, hw] at h; simp only [Layout.vaddr]; omega
    | force j => rcases key (.wrench i) (.wrench j) with e | h
                 · injection e with e; subst e; simp only [Layout.vaddr]; omega
                 · simp only [Layout.vaddr]; rw [hw, hw] at h; omega
    | torque j => rcases key (.wrench i) (.wrench j) with e | h
                  · injection e with e; subst e; exact .inl rfl
                  · simp only [Layout.vaddr]; rw [hw, hw] at h; omega
    | position j => have h := hL (.wrench i) (.pose j) (by simp); rw [hw, hp] at h; simp only [Layout.vaddr]; omega
  | position i => cases y with
    | var j => have h := hL (.pose i) (.vec j) (by simp); rw [hv, hp] at h; simp only [Layout.vaddr]; omega
    | force j => have h := hL (.pose i) (.wrench j) (by simp); rw [hw, hp] at h; simp only [Layout.vaddr]; omega
    | torque j => have h := hL (.pose i) (.wrench j) (by simp); rw [hw, hp] at h; simp only [Layout.vaddr]; omega
    | position j => rcases key (.pose i) (.pose j) with e | h
                    · injection e with e; subst e; exact .inl rfl
                    · simp only [Layout.vaddr]; rw [hp, hp] at h; omega

theorem wrench_wrench (i j : ℕ) : L.base (.wrench j) = L.base (.wrench i) ∨ Apart 6 (L.base (.wrench i)) 6 (L.base (.wrench j)) := by
  by_cases e : i = j
  · exact .inl (by rw [e])
  · exact .inr (hL (.wrench i) (.wrench j) (by simpa using e))

end

theorem memAssign_eq {n t a : ℕ} {l : List ℝ} {o : List ℕ} (h : IsOrder n o) (hl : l.length = n) (ht : Apart n a n t) (m : Mem) :
    memAssign t a l o m = fill a n (fun i => l.getD i 0) (fill t n (fun i => l.getD i 0) m) := by
  have e : construct t l m = fill t n (fun i => l.getD i 0) m := by unfold construct fill; rw [hl]
  unfold memAssign
  rw [memCopy_eq h (.inr ht), e]
  funext x
  by_cases hx : a ≤ x ∧ x < a + n
  · obtain ⟨i, rfl⟩ : ∃ i, x = a + i := ⟨x - a, by omega⟩
    rw [fill_in _ _ (by omega), fill_in _ _ (by omega), fill_in _ _ (by omega)]
  · rw [fill_out _ _ hx, fill_out _ _ hx]

theorem fill_fill (a n n' : ℕ) (f f' : ℕ → ℝ) (m : Mem) :
    fill (a + n) n' f' (fill a n f m) = fill a (n + n') (fun i => if i < n then f i else f' (i - n)) m := by
  funext x
  unfold fill
  by_cases h1 : a ≤ x
  · by_cases h2 : x < a + n
    · rw [if_neg (by omega), if_pos ⟨h1, h2⟩, if_pos (by omega)]
      exact (if_pos (by omega)).symm
    · by_cases h3 : x < a + n + n'
      · rw [if_pos (by omega), if_pos (by omega)]
        refine Eq.trans ?_ (if_neg (by omega)).symm
        congr 1; omega
      · rw [if_neg (by omega), if_neg (by omega), if_neg (by omega)]
  · rw [if_neg (by omega), if_neg (by omega), if_neg (by omega)]

theorem fill_congr {a n : ℕ} {f f' : ℕ → ℝ} (m : Mem) (h : ∀ i < n, f i = f' i) : fill a n f m = fill a n f' m := by
  funext x
  unfold fill
  split_ifs with hx
  · exact h _ (by omega)
  · rfl

/-- Two loops over the halves of a wrench are one loop. -/
theorem two_loops {a : ℕ} {g : ℕ → ℝ → ℝ → ℝ} {b : ℕ} (hab : b = a ∨ Apart 6 a 6 b) (m m' : Mem)
    (hm : m' = fill a 3 (fun i => g i (m (a + i)) (m (b + i))) m) :
    fill (a + 3) 3 (fun i => g (3 + i) (m' (a + 3 + i)) (m' (b + 3 + i))) m' = fill a 6 (fun i => g i (m (a + i)) (m (b + i))) m := by
  rw [show (6 : ℕ) = 3 + 3 from rfl]
  have e : fill (a + 3) 3 (fun i => g (3 + i) (m' (a + 3 + i)) (m' (b + 3 + i))) m'
      = fill (a + 3) 3 (fun i => g (3 + i) (m (a + (3 + i))) (m (b + (3 + i)))) m' := by
    refine fill_congr _ fun i hi => ?_
    have h1 : m' (a + 3 + i) = m (a + (3 + i)) := by
      rw [← Nat.add_assoc, hm]; exact fill_out _ _ (by omega)
    have h2 : m' (b + 3 + i) = m (b + (3 + i)) := by
      rw [← Nat.add_assoc, hm]
      refine fill_out _ _ ?_
      unfold Apart at hab; omega
    rw [h1, h2]
  rw [e, hm, fill_fill]
  refine fill_congr _ fun i hi => ?_
  split_ifs with h
  · rfl
  · rw [show 3 + (i - 3) = i by omega]

theorem memWrenchAdd_eq {a b : ℕ} {o₁ o₂ : List ℕ} (h₁ : IsOrder 3 o₁) (h₂ : IsOrder 3 o₂) (hab : b = a ∨ Apart 6 a 6 b) (m : Mem) :
    memWrenchAdd a b o₁ o₂ m = fill a 6 (fun i => m (a + i) + m (b + i)) m := by
  have h3 : b = a ∨ Apart 3 a 3 b := by unfold Apart at *; omega
  have h3' : b + 3 = a + 3 ∨ Apart 3 (a + 3) 3 (b + 3) := by unfold Apart at *; omega
  unfold memWrenchAdd
  rw [memAdd_eq h₂ h3']
  exact two_loops (g := fun _ u v => u + v) hab m _ (memAdd_eq h₁ h3 m)

theorem memWrenchSub_eq {a b : ℕ} {o₁ o₂ : List ℕ} (h₁ : IsOrder 3 o₁) (h₂ : IsOrder 3 o₂) (hab : b = a ∨ Apart 6 a 6 b) (m : Mem) :
    memWrenchSub a b o₁ o₂ m = fill a 6 (fun i => m (a + i) - m (b + i)) m := by
  have h3 : b = a ∨ Apart 3 a 3 b := by unfold Apart at *; omega
  have h3' : b + 3 = a + 3 ∨ Apart 3 (a + 3) 3 (b + 3) := by unfold Apart at *; omega
  unfold memWrenchSub
  rw [memSub_eq h₂ h3']
  exact two_loops (g := fun _ u v => u - v) hab m _ (memSub_eq h₁ h3 m)

theorem memWrenchCopy_eq {a b : ℕ} {o₁ o₂ : List ℕ} (h₁ : IsOrder 3 o₁) (h₂ : IsOrder 3 o₂) (hab : b = a ∨ Apart 6 a 6 b) (m : Mem) :
    memWrenchCopy a b o₁ o₂ m = fill a 6 (fun i => m (b + i)) m := by
  have h3 : b = a ∨ Apart 3 a 3 b := by unfold Apart at *; omega
  have h3' : b + 3 = a + 3 ∨ Apart 3 (a + 3) 3 (b + 3) := by unfold Apart at *; omega
  unfold memWrenchCopy
  rw [memCopy_eq h₂ h3']
  exact two_loops (g := fun _ _ v => v) hab m _ (memCopy_eq h₁ h3 m)

theorem memWrenchMulElem_eq {a : ℕ} {o₁ o₂ : List ℕ} (h₁ : IsOrder 3 o₁) (h₂ : IsOrder 3 o₂) (c : ℕ) (m : Mem) :
    memWrenchMulElem a c o₁ o₂ m = fill a 6 (fun i => m (a + i) * m c) m := by
  unfold memWrenchMulElem
  simp only
  rw [memMul_eq h₂]
  exact two_loops (b := a) (g := fun _ u _ => u * m c) (.inl rfl) m _ (memMul_eq h₁ _ m)

theorem memWrenchDivElem_eq {a : ℕ} {o₁ o₂ : List ℕ} (h₁ : IsOrder 3 o₁) (h₂ : IsOrder 3 o₂) (c : ℕ) (m : Mem) :
    memWrenchDivElem a c o₁ o₂ m = fill a 6 (fun i => m (a + i) / m c) m := by
  unfold memWrenchDivElem
  simp only
  rw [memDiv_eq h₂]
  exact two_loops (b := a) (g := fun _ u _ => u / m c) (.inl rfl) m _ (memDiv_eq h₁ _ m)

theorem compOf_load (m : Mem) (a : ℕ) (i : Fin 3) : m (a + i) = compOf (loadV m a) i := by fin_cases i <;> rfl

theorem repSize_le (k : Kind) : repSize k ≤ 9 := by cases k <;> simp [repSize]

theorem memTranspose_eq {t a : ℕ} {o₁ o₂ : List ℕ} (h₁ : IsOrder 9 o₁) (h₂ : IsOrder 9 o₂) (ht : Apart 9 a 9 t) (m : Mem) :
    memTranspose t a o₁ o₂ m = fill a 9 (fun i => (repStore .mat (inverted .mat (loadR m a .mat))).getD i 0)
      (fill t 9 (fun i => m (a + (3 * (i % 3) + i / 3))) m) := by
  unfold memTranspose
  have e := coeffLoop_eq (a := t) (g := fun i m => m (a + (3 * (i % 3) + i / 3))) h₁ m
    fun i hi m' e1 e2 => e2 _ (by unfold Apart at ht; omega)
  rw [e, memCopy_eq h₂ (.inr ht)]
  refine fill_congr _ fun i hi => ?_
  rw [fill_in _ _ hi]
  interval_cases i <;> rfl

theorem memInvert_eq {t a : ℕ} (k : Kind) {o₁ o₂ : List ℕ} (h₁ : IsOrder (repSize k) o₁) (h₂ : IsOrder (repSize k) o₂)
    (ht : Apart (repSize k) a (repSize k) t) (m : Mem) :
    ∃ f, memInvert t a k o₁ o₂ m = fill a (repSize k) (fun i => (repStore k (inverted k (loadR m a k))).getD i 0)
      (fill t (repSize k) f m) := by
  cases k with
  | mat => exact ⟨_, memTranspose_eq h₁ h₂ ht m⟩
  | _ => exact ⟨_, memAssign_eq h₂ rfl ht m⟩

section
variable {L : Layout} (hL : Separate L)
include hL

theorem values_assignV (x : VRef) (v : V3) {o : List ℕ} (h : IsOrder 3 o) (m : Mem) :
    values L (memAssign (L.base .tmp) (L.vaddr x) [v.x, v.y, v.z] o m) = (values L m).setV x v := by
  rw [memAssign_eq h rfl (vaddr_tmp hL x 3 (by omega)), values_setV hL, values_tmp hL _ (by omega)]
  rfl

theorem values_assignRvar (i : ℕ) (r : Rep (L.kind i)) {o : List ℕ} (h : IsOrder (repSize (L.kind i)) o) (m : Mem) :
    values L (memAssign (L.base .tmp) (L.base (.rot i)) (repStore _ r) o m) = (values L m).setR (.var i) r := by
  have := repSize_le (L.kind i)
  have ht : Apart (repSize (L.kind i)) (L.base (.rot i)) (repSize (L.kind i)) (L.base .tmp) := raddr_tmp hL (.var i) _ (by omega)
  refine (congrArg (values L) (memAssign_eq h (repStore_length _ r) ht m)).trans ?_
  refine (values_setRvar hL i r _).trans ?_
  rw [values_tmp hL _ (by omega)]

theorem values_assignRpose (i : ℕ) (r : Rep L.poseKind) {o : List ℕ} (h : IsOrder (repSize L.poseKind) o) (m : Mem) :
    values L (memAssign (L.base .tmp) (L.base (.pose i) + 3) (repStore _ r) o m) = (values L m).setR (.ofPose i) r := by
  have := repSize_le L.poseKind
  have ht : Apart (repSize L.poseKind) (L.base (.pose i) + 3) (repSize L.poseKind) (L.base .tmp) := raddr_tmp hL (.ofPose i) _ (by omega)
  refine (congrArg (values L) (memAssign_eq h (repStore_length _ r) ht m)).trans ?_
  refine (values_setRpose hL i r _).trans ?_
  rw [values_tmp hL _ (by omega)]

/-- **C101, one statement.**  One statement of a program changes the values of the variables as the value-based function does. -/
theorem C101_statement (P : Prec) (o : ℕ → ℕ → List ℕ) (ho : ∀ j n, IsOrder n (o j n)) (c : Call) (m : Mem) :
    values L (L.exec P o c m) = (values L m).run P c := by
  cases c with
  | addV x y =>
    simp only [Layout.exec, Values.run, getV_values]
    rw [memAdd_eq (ho 0 3) (vaddr_vaddr hL x y), values_setV hL]
    rfl
  | subV x y =>
    simp only [Layout.exec, Values.run, getV_values]
    rw [memSub_eq (ho 0 3) (vaddr_vaddr hL x y), values_setV hL]
    rfl
  | mulV x y i =>
    simp only [Layout.exec, Values.run, getV_values, memMulElem, compOf_load]
    rw [memMul_eq (ho 0 3), values_setV hL]
    congr 1
    apply V3.ext <;> exact mul_comm _ _
  | divV x y i =>
    simp only [Layout.exec, Values.run, getV_values, memDivElem, compOf_load]
    rw [memDiv_eq (ho 0 3), values_setV hL]
    rfl
  | copyV x y =>
    simp only [Layout.exec, Values.run, getV_values]
    rw [memCopy_eq (ho 0 3) (vaddr_vaddr hL x y), values_setV hL]
    rfl
  | zeroV x =>
    simp only [Layout.exec, Values.run]
    rw [memZero_eq (ho 0 3), values_setV hL]
    rfl
  | normalizeV x =>
    simp only [Layout.exec, Values.run, getV_values]
    obtain ⟨f, hf, e⟩ := memNormalize_eq (a := L.vaddr x) (ho 0 3) m .Typeless
    rw [hf, values_setV hL]
    have e' : loadN .Typeless 3 m (L.vaddr x) = asVec .Typeless (loadV m (L.vaddr x)) := by
      apply Vec.ext; funext i; fin_cases i <;> rfl
    rw [← e', ← e]
    rfl
  | addW x y =>
    simp only [Layout.exec, Values.run]
    rw [memWrenchAdd_eq (ho 0 3) (ho 1 3) (wrench_wrench hL x y), values_setW hL]
    congr 1
    apply Wrench.ext <;> apply Vec.ext <;> funext i
    · rfl
    · simp only [← Nat.add_assoc]; rfl
  | subW x y =>
    simp only [Layout.exec, Values.run]
    rw [memWrenchSub_eq (ho 0 3) (ho 1 3) (wrench_wrench hL x y), values_setW hL]
    congr 1
    apply Wrench.ext <;> apply Vec.ext <;> funext i
    · rfl
    · simp only [← Nat.add_assoc]; rfl
  | mulW x y i =>
    simp only [Layout.exec, Values.run, getV_values, ← compOf_load]
    rw [memWrenchMulElem_eq (ho 0 3) (ho 1 3), values_setW hL]
    congr 1
    apply Wrench.ext <;> apply Vec.ext <;> funext j
    · rfl
    · simp only [← Nat.add_assoc]; rfl
  | divW x y i =>
    simp only [Layout.exec, Values.run, getV_values, ← compOf_load]
    rw [memWrenchDivElem_eq (ho 0 3) (ho 1 3), values_setW hL]
    congr 1
    apply Wrench.ext <;> apply Vec.ext <;> funext j
    · rfl
    · simp only [← Nat.add_assoc]; rfl
  | copyW x y =>
    simp only [Layout.exec, Values.run]
    rw [memWrenchCopy_eq (ho 0 3) (ho 1 3) (wrench_wrench hL x y), values_setW hL]
    congr 1
    apply Wrench.ext <;> apply Vec.ext <;> funext j
    · rfl
    · simp only [← Nat.add_assoc]; rfl
  | invert r =>
    have h9 := repSize_le (L.rkind r)
    obtain ⟨f, hf⟩ := memInvert_eq (L.rkind r) (ho 0 _) (ho 1 _) (raddr_tmp hL r (repSize (L.rkind r)) (by omega)) m
    simp only [Layout.exec]
    rw [hf]
    cases r with
    | var i => exact (values_setRvar hL i _ _).trans (by rw [values_tmp hL _ (by omega)]; rfl)
    | ofPose i => exact (values_setRpose hL i _ _).trans (by rw [values_tmp hL _ (by omega)]; rfl)
  | setUnique r =>
    cases r with
    | var i => exact values_assignRvar hL i _ (ho 0 _) m
    | ofPose i => exact values_assignRpose hL i _ (ho 0 _) m
  | convert r s =>
    cases r with
    | var i => cases s with
      | var j => exact values_assignRvar hL i _ (ho 0 _) m
      | ofPose j => exact values_assignRvar hL i _ (ho 0 _) m
    | ofPose i => cases s with
      | var j => exact values_assignRpose hL i _ (ho 0 _) m
      | ofPose j => exact values_assignRpose hL i _ (ho 0 _) m
  | product r s u =>
    cases r with
    | var i => cases s <;> cases u <;> exact values_assignRvar hL i _ (ho 0 _) m
    | ofPose i => cases s <;> cases u <;> exact values_assignRpose hL i _ (ho 0 _) m
  | rotate x r y =>
    simp only [Layout.exec, Values.run, getV_values]
    cases r <;> exact values_assignV hL x _ (ho 0 3) m
  | transform x p y =>
    simp only [Layout.exec, Values.run, getV_values]
    exact values_assignV hL x _ (ho 0 3) m
  | productP p q s =>
    have h9 := repSize_le L.poseKind
    have ht : Apart (3 + repSize L.poseKind) (L.base (.pose p)) (3 + repSize L.poseKind) (L.base .tmp) :=
      sep hL (b := .pose p) (b' := .tmp) (i := 0) (j := 0) (by simp) (by simp [Layout.size]) (by simp [Layout.size]; omega)
    simp only [Layout.exec, Values.run, memPoseProduct]
    rw [memAssign_eq (ho 0 _) (by simp [poseStore, repStore_length]; omega) ht, values_setP hL, values_tmp hL _ (by omega)]
    rfl

/-- **C101, programs.**  A program of any length with any sharing of whole objects and parts, its loops in any order: what is in memory afterwards are
the values computed by the value-based functions. -/
theorem C101_program (P : Prec) (cs : List (Call × (ℕ → ℕ → List ℕ))) (ho : ∀ c ∈ cs, ∀ j n, IsOrder n (c.2 j n)) (m : Mem) :
    values L (L.execAll P cs m) = (values L m).runAll P (cs.map Prod.fst) := by
  induction cs generalizing m with
  | nil => rfl
  | cons c cs ih =>
    show values L (L.execAll P cs (L.exec P c.2 c.1 m)) = ((values L m).run P c.1).runAll P (cs.map Prod.fst)
    rw [ih (fun c' hc' => ho c' (List.mem_cons_of_mem _ hc')), C101_statement hL P c.2 (ho c (List.mem_cons_self ..))]

end

/-- **C101, wrenches.**  The same for wrenches: `w += w`, `w -= w`, `w = w`, and `w *= w.getForce()(i)`, whose factor is read before the force changes. -/
theorem C101_wrench (a : ℕ) (o₁ o₂ : List ℕ) (h₁ : IsOrder 3 o₁) (h₂ : IsOrder 3 o₂) (m : Mem) :
    (∀ b, b = a ∨ Apart 6 a 6 b →
      loadW (memWrenchAdd a b o₁ o₂ m) a = (loadW m a).add (loadW m b) ∧ OnlyChanges 6 a m (memWrenchAdd a b o₁ o₂ m) ∧
      loadW (memWrenchSub a b o₁ o₂ m) a = (loadW m a).sub (loadW m b) ∧ OnlyChanges 6 a m (memWrenchSub a b o₁ o₂ m) ∧
      loadW (memWrenchCopy a b o₁ o₂ m) a = loadW m b ∧ OnlyChanges 6 a m (memWrenchCopy a b o₁ o₂ m)) ∧
    (∀ c, loadW (memWrenchMulElem a c o₁ o₂ m) a = (loadW m a).smul (m c) ∧ OnlyChanges 6 a m (memWrenchMulElem a c o₁ o₂ m) ∧
      loadW (memWrenchDivElem a c o₁ o₂ m) a = (loadW m a).sdiv (m c) ∧ OnlyChanges 6 a m (memWrenchDivElem a c o₁ o₂ m)) := by
  have key : ∀ f : ℕ → ℝ, loadW (fill a 6 f m) a = ⟨⟨fun j => f j⟩, ⟨fun j => f (3 + j)⟩⟩ := by
    intro f
    apply Wrench.ext <;> apply Vec.ext <;> funext l
    · exact fill_in f m (by omega)
    · have := fill_in (a := a) (n := 6) (i := 3 + l) f m (by omega)
      rwa [← Nat.add_assoc] at this
  refine ⟨fun b hab => ?_, fun c => ?_⟩
  · rw [memWrenchAdd_eq h₁ h₂ hab, memWrenchSub_eq h₁ h₂ hab, memWrenchCopy_eq h₁ h₂ hab]
    simp only [key, ← Nat.add_assoc]
    exact ⟨rfl, onlyChanges_fill _ _ _ _, rfl, onlyChanges_fill _ _ _ _, rfl, onlyChanges_fill _ _ _ _⟩
  · rw [memWrenchMulElem_eq h₁ h₂, memWrenchDivElem_eq h₁ h₂]
    simp only [key, ← Nat.add_assoc]
    exact ⟨rfl, onlyChanges_fill _ _ _ _, rfl, onlyChanges_fill _ _ _ _⟩

/-- **C101, `operator()` of quaternions.**  `q(p)` copies `p` also when `p` is `q`, and changes nothing else. -/
theorem C101_quaternion_call (a b : ℕ) (hab : b = a ∨ Apart 4 a 4 b) (m : Mem) :
    loadR (memQuatCall a b m) a .quat = loadR m b .quat ∧ OnlyChanges 4 a m (memQuatCall a b m) := by
  refine ⟨?_, fun x hx => ?_⟩
  · show (⟨memQuatCall a b m (a + 3), memQuatCall a b m a, memQuatCall a b m (a + 1), memQuatCall a b m (a + 2)⟩ : Quat)
      = ⟨m (b + 3), m b, m (b + 1), m (b + 2)⟩
    unfold memQuatCall
    rcases hab with rfl | h
    · simp
    · unfold Apart at h
      apply Quat.ext <;> simp (disch := omega) [Function.update_of_ne, Function.update_self]
  · unfold memQuatCall
    rw [Function.update_of_ne (by omega), Function.update_of_ne (by omega), Function.update_of_ne (by omega), Function.update_of_ne (by omega)]

/-- **C101, rotations and poses.**  `invert()`, `setUnique()`, assignment of another class and assignment of a product store the value computed from
the old values, whatever the operands share with the target (their addresses `b` and `c` are arbitrary); only the target and the temporary
change. -/
theorem C101_rotations (P : Prec) (t a : ℕ) (k : Kind) (o₁ o₂ : List ℕ) (h₁ : IsOrder (repSize k) o₁) (h₂ : IsOrder (repSize k) o₂)
    (ht : Apart (repSize k) a (repSize k) t) (m : Mem) :
    loadR (memInvert t a k o₁ o₂ m) a k = inverted k (loadR m a k) ∧
    loadR (memUnique P t a k o₁ m) a k = getUnique P k (loadR m a k) ∧
    (∀ b s, loadR (memConvert P t a b k s o₁ m) a k = conv P k s (loadR m b s)) ∧
    (∀ b c k₁ k₂, loadR (memProduct P t a b c k k₁ k₂ o₁ m) a k = conv P k k₁ (mult P k₁ k₂ (loadR m b k₁) (loadR m c k₂))) ∧
    ∀ x, ¬ (a ≤ x ∧ x < a + repSize k) → ¬ (t ≤ x ∧ x < t + repSize k) →
      memInvert t a k o₁ o₂ m x = m x ∧ memUnique P t a k o₁ m x = m x ∧ (∀ b s, memConvert P t a b k s o₁ m x = m x) ∧
      ∀ b c k₁ k₂, memProduct P t a b c k k₁ k₂ o₁ m x = m x := by
  obtain ⟨f, hf⟩ := memInvert_eq k h₁ h₂ ht m
  have key : ∀ r : Rep k, loadR (memAssign t a (repStore k r) o₁ m) a k = r := by
    intro r
    rw [memAssign_eq h₁ (repStore_length k r) ht]
    exact loadR_fill k r a _
  have key' : ∀ r : Rep k, ∀ x, ¬ (a ≤ x ∧ x < a + repSize k) → ¬ (t ≤ x ∧ x < t + repSize k) →
      memAssign t a (repStore k r) o₁ m x = m x := by
    intro r x hx hx'
    rw [memAssign_eq h₁ (repStore_length k r) ht, fill_out _ _ hx, fill_out _ _ hx']
  refine ⟨?_, key _, fun b s => key _, fun b c k₁ k₂ => key _, fun x hx hx' => ⟨?_, key' _ x hx hx', fun b s => key' _ x hx hx',
    fun b c k₁ k₂ => key' _ x hx hx'⟩⟩
  · rw [hf]; exact loadR_fill k _ a _
  · rw [hf, fill_out _ _ hx, fill_out _ _ hx']

/-- **C101, overlap.**  Sharing *some* cells is not safe: if the argument starts one or two cells after the target, `+=` is right in one order
of the loop and wrong in another; and transposing a matrix without a temporary is wrong. -/
theorem C101_overlap (a d : ℕ) (hd : d = 1 ∨ d = 2) :
    (∃ (m : Mem) (o o' : List ℕ), IsOrder 3 o ∧ IsOrder 3 o' ∧ loadV (memAdd a (a + d) o m) a = loadV m a + loadV m (a + d) ∧
      loadV (memAdd a (a + d) o' m) a ≠ loadV m a + loadV m (a + d)) ∧
    (∃ m : Mem, loadR (coeffLoop a (fun i m => m (a + (3 * (i % 3) + i / 3))) (List.range 9) m) a .mat ≠ inverted .mat (loadR m a .mat)) := by
  constructor
  · refine ⟨fun x => if x = a + d + 2 then 1 else 0, [0, 1, 2], [2, 1, 0], List.Perm.refl _, List.reverse_perm [0, 1, 2], ?_, ?_⟩
    · rcases hd with rfl | rfl
      · apply V3.ext <;> simp [loadV, memAdd, coeffLoop, Function.update_apply]
        omega
      · apply V3.ext <;> simp [loadV, memAdd, coeffLoop, Function.update_apply]
        omega
    · intro h
      rcases hd with rfl | rfl
      · have := congrArg V3.y h
        simp [loadV, memAdd, coeffLoop] at this
      · have := congrArg V3.x h
        simp [loadV, memAdd, coeffLoop] at this
  · refine ⟨fun x => if x = a + 1 then 1 else 0, fun h => ?_⟩
    have := congrArg M3.m01 h
    simp [loadR, inverted, M3.transpose, coeffLoop, List.range, List.range.loop] at this

/-- A layout with matrices and quaternions. -/
def exLayout : Layout where
  kind := fun i => match i with
    | 0 => .mat
    | _ => .quat
  poseKind := .quat
  base := fun b => match b with
    | .vec i => 92 + 40 * i
    | .wrench i => 95 + 40 * i
    | .rot i => 101 + 40 * i
    | .pose i => 110 + 40 * i
    | .tmp => 0

/-- **C101, a concrete program.**  The hypotheses hold for a layout with matrices, quaternions, vectors, wrenches and poses, and the program
`v += v; v *= v(1); w.getForce() += w.getTorque(); r.invert()` gives the values expected. -/
theorem C101_example :
    Separate exLayout ∧
    (let m : Mem := fun x => x
     let cs := [(Call.addV (.var 0) (.var 0), fun _ n => List.range n), (Call.mulV (.var 0) (.var 0) 1, fun _ n => (List.range n).reverse),
       (Call.addV (.force 0) (.torque 0), fun _ n => List.range n), (Call.invert (.var 0), fun _ n => (List.range n).reverse)]
     (∀ c ∈ cs, ∀ j n, IsOrder n (c.2 j n)) ∧
     (values exLayout (exLayout.execAll .double cs m)).vec 0 = ⟨184 * 186, 186 * 186, 188 * 186⟩ ∧
     ((values exLayout (exLayout.execAll .double cs m)).wrench 0).force = ⟨![95 + 98, 96 + 99, 97 + 100]⟩ ∧
     (values exLayout (exLayout.execAll .double cs m)).rot 0 = (⟨101, 102, 103, 104, 105, 106, 107, 108, 109⟩ : M3)) := by
  have hS : Separate exLayout := by
    intro b b' hne
    have hr : ∀ i, repSize (exLayout.kind i) ≤ 9 := fun i => repSize_le _
    have e1 : ∀ i, exLayout.base (.vec i) = 92 + 40 * i := fun i => rfl
    have e2 : ∀ i, exLayout.base (.wrench i) = 95 + 40 * i := fun i => rfl
    have e3 : ∀ i, exLayout.base (.rot i) = 101 + 40 * i := fun i => rfl
    have e4 : ∀ i, exLayout.base (.pose i) = 110 + 40 * i := fun i => rfl
    have e5 : exLayout.base .tmp = 0 := rfl
    have s1 : ∀ i, exLayout.size (.vec i) = 3 := fun i => rfl
    have s2 : ∀ i, exLayout.size (.wrench i) = 6 := fun i => rfl
    have s3 : ∀ i, exLayout.size (.rot i) ≤ 9 := fun i => hr i
    have s4 : ∀ i, exLayout.size (.pose i) = 7 := fun i => rfl
    have s5 : exLayout.size .tmp = 36 := rfl
    cases b with
    | vec i => cases b' with
      | vec j => rw [e1, e1, s1, s1]; have : i ≠ j := fun h => hne (by rw [h]); omega
      | wrench j => rw [e1, e2, s1, s2]; omega
      | rot j => rw [e1, e3, s1]; have := s3 j; omega
      | pose j => rw [e1, e4, s1, s4]; omega
      | tmp => rw [e1, e5, s1, s5]; omega
    | wrench i => cases b' with
      | vec j => rw [e1, e2, s1, s2]; omega
      | wrench j => rw [e2, e2, s2, s2]; have : i ≠ j := fun h => hne (by rw [h]); omega
      | rot j => rw [e2, e3, s2]; have := s3 j; omega
      | pose j => rw [e2, e4, s2, s4]; omega
      | tmp => rw [e2, e5, s2, s5]; omega
    | rot i => cases b' with
      | vec j => rw [e1, e3, s1]; have := s3 i; omega
      | wrench j => rw [e2, e3, s2]; have := s3 i; omega
      | rot j => rw [e3, e3]; have := s3 i; have := s3 j; have : i ≠ j := fun h => hne (by rw [h]); omega
      | pose j => rw [e3, e4, s4]; have := s3 i; omega
      | tmp => rw [e3, e5, s5]; have := s3 i; omega
    | pose i => cases b' with
      | vec j => rw [e1, e4, s1, s4]; omega
      | wrench j => rw [e2, e4, s2, s4]; omega
      | rot j => rw [e3, e4, s4]; have := s3 j; omega
      | pose j => rw [e4, e4, s4, s4]; have : i ≠ j := fun h => hne (by rw [h]); omega
      | tmp => rw [e4, e5, s4, s5]; omega
    | tmp => cases b' with
      | vec j => rw [e1, e5, s1, s5]; omega
      | wrench j => rw [e2, e5, s2, s5]; omega
      | rot j => rw [e3, e5, s5]; omega
      | pose j => rw [e4, e5, s4, s5]; omega
      | tmp => exact absurd rfl hne
  refine ⟨hS, ?_⟩
  intro m cs
  have ho : ∀ c ∈ cs, ∀ j n, IsOrder n (c.2 j n) := by
    intro c hc j n
    simp only [cs, List.mem_cons, List.not_mem_nil, or_false] at hc
    rcases hc with rfl | rfl | rfl | rfl
    · exact List.Perm.refl _
    · exact List.reverse_perm _
    · exact List.Perm.refl _
    · exact List.reverse_perm _
  refine ⟨ho, ?_⟩
  rw [C101_program hS .double cs ho m]
  refine ⟨?_, ?_, ?_⟩
  · apply V3.ext <;> simp [cs, Values.runAll, Values.run, Values.setV, Values.setR, Values.getV, values, loadV, compOf, exLayout, m] <;> norm_num
  · apply Vec.ext
    funext i
    fin_cases i <;> simp [cs, Values.runAll, Values.run, Values.setV, Values.setR, Values.getV, values, loadW, asV3, asVec, Wrench.setForce,
      exLayout, m] <;> norm_num
  · have e : ∀ (s : Values exLayout.kind exLayout.poseKind) (r : Rep (exLayout.kind 0)), (s.setR (.var 0) r).rot 0 = r :=
      fun s r => Function.update_self (β := fun i => Rep (exLayout.kind i)) 0 r s.rot
    refine (e _ _).trans ?_
    show (⟨((101 : ℕ) : ℝ), ((101 + 1 : ℕ) : ℝ), ((101 + 2 : ℕ) : ℝ), ((101 + 3 : ℕ) : ℝ), ((101 + 4 : ℕ) : ℝ), ((101 + 5 : ℕ) : ℝ),
      ((101 + 6 : ℕ) : ℝ), ((101 + 7 : ℕ) : ℝ), ((101 + 8 : ℕ) : ℝ)⟩ : M3) = _
    apply M3.ext <;> norm_num

end Kindr.Spec
