import Verif.Spec.Threads
import Verif.Props.Memory

/-!
# C102: several threads

Threads whose calls do not touch what another thread changes do not interfere: every execution, interleaved at the level of single loads
and stores, gives the result of the programs one after the other.
-/

set_option autoImplicit false

open Classical

noncomputable section
namespace Kindr.Spec
open Kindr

/-- Two memories agree outside the temporaries at `t`. -/
def EqOff (t : ℕ) (m m' : Mem) : Prop := ∀ x, ¬ (t ≤ x ∧ x < t + 36) → m x = m' x

theorem EqOff.refl (t : ℕ) (m : Mem) : EqOff t m m := fun _ _ => rfl

theorem EqOff.trans {t : ℕ} {m₁ m₂ m₃ : Mem} (h : EqOff t m₁ m₂) (h' : EqOff t m₂ m₃) : EqOff t m₁ m₃ :=
  fun x hx => (h x hx).trans (h' x hx)

theorem EqOff.symm {t : ℕ} {m₁ m₂ : Mem} (h : EqOff t m₁ m₂) : EqOff t m₂ m₁ := fun x hx => (h x hx).symm

theorem runOps_nil (m : Mem) : runOps [] m = m := rfl

theorem runOps_cons (p : Op) (l : List Op) (m : Mem) : runOps (p :: l) m = runOps l (p.run m) := rfl

theorem runOps_append (l l' : List Op) (m : Mem) : runOps (l ++ l') m = runOps l' (runOps l m) := by
  unfold runOps; exact List.foldl_append ..

theorem Op.run_self (d : ℕ) (v : Mem → ℝ) (m : Mem) : Op.run ⟨d, v⟩ m d = v m := Function.update_self ..

theorem Op.run_ne {d x : ℕ} (v : Mem → ℝ) (m : Mem) (h : x ≠ d) : Op.run ⟨d, v⟩ m x = m x := Function.update_of_ne h ..

theorem EqOff.tmp {t d : ℕ} {m m' : Mem} (v : Mem → ℝ) (h : EqOff t m m') (hd : t ≤ d ∧ d < t + 36) : EqOff t (Op.run ⟨d, v⟩ m) m' :=
  fun x hx => (Op.run_ne v m (by rintro rfl; exact hx hd)).trans (h x hx)

theorem EqOff.store {t d : ℕ} {m m' : Mem} {v : Mem → ℝ} {w : ℝ} (h : EqOff t m m') (hw : v m = w) :
    EqOff t (Op.run ⟨d, v⟩ m) (Function.update m' d w) := by
  intro x hx
  by_cases e : x = d
  · subst e; rw [Op.run_self, Function.update_self, hw]
  · rw [Op.run_ne _ _ e, Function.update_of_ne e]; exact h x hx

theorem binOps_eqOff {t a b : ℕ} {f : ℝ → ℝ → ℝ} (o : List ℕ) :
    ∀ {m m' : Mem}, EqOff t m m' → (∀ i ∈ o, ¬ (t ≤ a + i ∧ a + i < t + 36) ∧ ¬ (t ≤ b + i ∧ b + i < t + 36)) →
      EqOff t (runOps (binOps t a b f o) m) (coeffLoop a (fun i m => f (m (a + i)) (m (b + i))) o m') := by
  induction o with
  | nil => intro m m' h _; exact h
  | cons i is ih =>
    intro m m' h ho
    obtain ⟨ha, hb⟩ := ho i (List.mem_cons_self ..)
    have e : binOps t a b f (i :: is) = [⟨t, fun m => m (a + i)⟩, ⟨t + 1, fun m => m (b + i)⟩, ⟨a + i, fun m => f (m t) (m (t + 1))⟩]
      ++ binOps t a b f is := rfl
    rw [e, runOps_append, runOps_cons, runOps_cons, runOps_cons, runOps_nil]
    refine ih ?_ fun j hj => ho j (List.mem_cons_of_mem _ hj)
    refine EqOff.store (EqOff.tmp _ (EqOff.tmp _ h (by omega)) (by omega)) ?_
    rw [Op.run_self, Op.run_ne _ _ (by omega), Op.run_self, Op.run_ne _ _ (by omega), h _ ha, h _ hb]

theorem scaleOps_eqOff {t a : ℕ} {f : ℝ → ℝ → ℝ} {c : ℝ} (o : List ℕ) :
    ∀ {m m' : Mem}, EqOff t m m' → m (t + 1) = c → (∀ i ∈ o, ¬ (t ≤ a + i ∧ a + i < t + 36)) →
      EqOff t (runOps (scaleOps t a f o) m) (coeffLoop a (fun i m => f (m (a + i)) c) o m') ∧
        runOps (scaleOps t a f o) m (t + 1) = c := by
  induction o with
  | nil => intro m m' h hc _; exact ⟨h, hc⟩
  | cons i is ih =>
    intro m m' h hc ho
    have ha := ho i (List.mem_cons_self ..)
    have e : scaleOps t a f (i :: is) = [⟨t, fun m => m (a + i)⟩, ⟨a + i, fun m => f (m t) (m (t + 1))⟩] ++ scaleOps t a f is := rfl
    rw [e, runOps_append, runOps_cons, runOps_cons, runOps_nil]
    refine ih ?_ ?_ fun j hj => ho j (List.mem_cons_of_mem _ hj)
    · refine EqOff.store (EqOff.tmp _ h (by omega)) ?_
      rw [Op.run_self, Op.run_ne _ _ (by omega), h _ ha, hc]
    · rw [Op.run_ne _ _ (by omega), Op.run_ne _ _ (by omega), hc]

theorem copyOps_eqOff {t a b : ℕ} (o : List ℕ) :
    ∀ {m m' : Mem}, EqOff t m m' → (∀ i ∈ o, ¬ (t ≤ b + i ∧ b + i < t + 36)) →
      EqOff t (runOps (copyOps t a b o) m) (memCopy a b o m') := by
  induction o with
  | nil => intro m m' h _; exact h
  | cons i is ih =>
    intro m m' h ho
    have hb := ho i (List.mem_cons_self ..)
    have e : copyOps t a b (i :: is) = [⟨t, fun m => m (b + i)⟩, ⟨a + i, fun m => m t⟩] ++ copyOps t a b is := rfl
    rw [e, runOps_append, runOps_cons, runOps_cons, runOps_nil]
    refine ih ?_ fun j hj => ho j (List.mem_cons_of_mem _ hj)
    refine EqOff.store (EqOff.tmp _ h (by omega)) ?_
    rw [Op.run_self, h _ hb]

theorem runOps_map (a : ℕ) (g : ℕ → Mem → ℝ) (o : List ℕ) : ∀ m, runOps (o.map fun i => ⟨a + i, g i⟩) m = coeffLoop a g o m := by
  induction o with
  | nil => intro m; rfl
  | cons i is ih => intro m; exact ih _

theorem IsOrder.range (n : ℕ) : IsOrder n (List.range n) := List.Perm.refl _

theorem runOps_load {t b n : ℕ} (h : Apart n t n b) (m : Mem) : runOps (loadOps t b n) m = fill t n (fun i => m (b + i)) m := by
  unfold loadOps
  rw [runOps_map t (fun i m => m (b + i))]
  exact memCopy_eq (IsOrder.range n) (.inr h) m

theorem eqOff_fill {t d n : ℕ} (f : ℕ → ℝ) {m m' : Mem} (h : EqOff t m m') (hd : t ≤ d ∧ d + n ≤ t + 36) : EqOff t (fill d n f m) m' := by
  intro x hx
  rw [fill_out _ _ (by omega)]; exact h x hx

theorem eqOff_fill_fill {t a n : ℕ} {f f' : ℕ → ℝ} {m m' : Mem} (h : EqOff t m m') (hf : ∀ i < n, f i = f' i) :
    EqOff t (fill a n f m) (fill a n f' m') := by
  intro x hx
  unfold fill
  split_ifs with hc
  · exact hf _ (by omega)
  · exact h x hx

/-- A call that loads its arguments, computes, and stores. -/
theorem callOps_eqOff {t a n : ℕ} {F : Mem → List ℝ} {o : List ℕ} (ho : IsOrder n o) (hn : n ≤ 12) (ha : Apart n a 36 t) {l : List ℝ}
    {loads : List Op} {m : Mem} (h₁ : EqOff t (runOps loads m) m)
    (hF : ∀ m', OnlyChanges n (t + 24) (runOps loads m) m' → F m' = l) :
    EqOff t (runOps (loads ++ computeOps t n F ++ storeOps t a o) m) (fill a n (fun i => l.getD i 0) m) := by
  rw [runOps_append, runOps_append]
  generalize runOps loads m = m₁ at *
  unfold computeOps storeOps
  rw [runOps_map (t + 24) (fun i m => (F m).getD i 0), runOps_map a (fun i m => m (t + 24 + i)),
    coeffLoop_eq (IsOrder.range n) m₁ (fun i hi m' _ e2 => by rw [hF m' e2, hF m₁ (fun _ _ => rfl)])]
  have e := memCopy_eq (a := a) (b := t + 24) ho (.inr (by unfold Apart at *; omega)) (fill (t + 24) n (fun i => (F m₁).getD i 0) m₁)
  unfold memCopy at e
  rw [e]
  refine eqOff_fill_fill (eqOff_fill _ h₁ (by omega)) fun i hi => ?_
  rw [fill_in _ _ hi, hF m₁ (fun _ _ => rfl)]

theorem loadV_shift {m m' : Mem} {a a' : ℕ} (h : ∀ i < 3, m' (a' + i) = m (a + i)) : loadV m' a' = loadV m a := by
  unfold loadV
  have h0 := h 0 (by omega); have h1 := h 1 (by omega); have h2 := h 2 (by omega)
  rw [Nat.add_zero, Nat.add_zero] at h0
  rw [h0, h1, h2]

theorem loadR_shift {m m' : Mem} {a a' : ℕ} (k : Kind) (h : ∀ i < repSize k, m' (a' + i) = m (a + i)) : loadR m' a' k = loadR m a k := by
  cases k <;> simp only [repSize] at h
  all_goals
    have h0 := h 0 (by omega); have h1 := h 1 (by omega); have h2 := h 2 (by omega)
    rw [Nat.add_zero, Nat.add_zero] at h0
    try have h3 := h 3 (by omega)
    try have h4 := h 4 (by omega)
    try have h5 := h 5 (by omega)
    try have h6 := h 6 (by omega)
    try have h7 := h 7 (by omega)
    try have h8 := h 8 (by omega)
    simp only [loadR, loadV, *]

theorem loadP_shift {m m' : Mem} {a a' : ℕ} (k : Kind) (h : ∀ i < 3 + repSize k, m' (a' + i) = m (a + i)) :
    loadP m' a' k = loadP m a k := by
  unfold loadP
  have h' : ∀ i < repSize k, m' (a' + 3 + i) = m (a + 3 + i) := fun i hi => by
    rw [Nat.add_assoc, Nat.add_assoc]; exact h (3 + i) (by omega)
  rw [loadV_shift fun i hi => h i (by omega), loadR_shift k h']

theorem memAssign_eqOff {t a n : ℕ} {l : List ℝ} {o : List ℕ} (ho : IsOrder n o) (hl : l.length = n) (hn : n ≤ 12) (ha : Apart n a 36 t)
    (m : Mem) : EqOff t (fill a n (fun i => l.getD i 0) m) (memAssign t a l o m) := by
  rw [memAssign_eq ho hl (by unfold Apart at *; omega)]
  exact eqOff_fill_fill (eqOff_fill _ (EqOff.refl t m) (by omega)).symm fun i _ => rfl

/-- One argument is loaded. -/
theorem load1 {t b n : ℕ} (hn : n ≤ 12) (hb : Apart n b 36 t) (m : Mem) :
    EqOff t (runOps (loadOps t b n) m) m ∧
      ∀ n' m', n' ≤ 12 → OnlyChanges n' (t + 24) (runOps (loadOps t b n) m) m' → ∀ i < n, m' (t + i) = m (b + i) := by
  rw [runOps_load (by unfold Apart at *; omega)]
  refine ⟨eqOff_fill _ (EqOff.refl t m) (by omega), fun n' m' hn' h i hi => ?_⟩
  rw [h _ (by omega), fill_in _ _ hi]

/-- Two arguments are loaded. -/
theorem load2 {t b c n n₂ : ℕ} (hn : n ≤ 12) (hn₂ : n₂ ≤ 12) (hb : Apart n b 36 t) (hc : Apart n₂ c 36 t) (m : Mem) :
    EqOff t (runOps (loadOps t b n ++ loadOps (t + 12) c n₂) m) m ∧
      ∀ n' m', n' ≤ 12 → OnlyChanges n' (t + 24) (runOps (loadOps t b n ++ loadOps (t + 12) c n₂) m) m' →
        (∀ i < n, m' (t + i) = m (b + i)) ∧ ∀ i < n₂, m' (t + 12 + i) = m (c + i) := by
  rw [runOps_append, runOps_load (by unfold Apart at *; omega), runOps_load (by unfold Apart at *; omega)]
  refine ⟨eqOff_fill _ (eqOff_fill _ (EqOff.refl t m) (by omega)) (by omega), fun n' m' hn' h => ⟨fun i hi => ?_, fun i hi => ?_⟩⟩
  · rw [h _ (by omega), fill_out _ _ (by omega), fill_in _ _ hi]
  · rw [h _ (by omega), fill_in _ _ hi, fill_out]
    unfold Apart at hc; omega

section
variable {L : Layout} (hL : Separate L)
include hL

theorem wrench_tmp (x : ℕ) : Apart 6 (L.base (.wrench x)) 36 (L.base .tmp) := hL (.wrench x) .tmp (by simp)

theorem pose_tmp (x : ℕ) : Apart (3 + repSize L.poseKind) (L.base (.pose x)) 36 (L.base .tmp) := hL (.pose x) .tmp (by simp)

theorem values_eqOff {m m' : Mem} (h : EqOff (L.base .tmp) m m') : values L m = values L m' := by
  have key : ∀ b, b ≠ .tmp → ∀ i < L.size b, m (L.base b + i) = m' (L.base b + i) := by
    intro b hb i hi
    have := hL b .tmp hb
    have e : L.size .tmp = 36 := rfl
    exact h _ (by omega)
  apply Values.ext <;> funext j
  · exact loadV_congr (key (.vec j) (by simp))
  · exact loadW_congr (key (.wrench j) (by simp))
  · exact loadR_congr _ (key (.rot j) (by simp))
  · exact loadP_congr _ (key (.pose j) (by simp))

/-- The operations of a call have the effect of the call, apart from the temporaries. -/
theorem ops_eqOff (P : Prec) (o : ℕ → ℕ → List ℕ) (ho : ∀ j n, IsOrder n (o j n)) (c : Call) (m : Mem) :
    EqOff (L.base .tmp) (runOps (L.ops P o c) m) (L.exec P o c m) := by
  have hmem : ∀ {j n i}, i ∈ o j n → i < n := fun {j n i} h => ((ho j n).mem i).mp h
  have hv := fun x => vaddr_tmp hL x 36 le_rfl
  have hr := fun r => raddr_tmp hL r 36 le_rfl
  have hw := wrench_tmp hL
  have hp := pose_tmp hL
  have h9 := repSize_le
  cases c with
  | addV x y =>
    refine binOps_eqOff _ (EqOff.refl _ _) fun i hi => ?_
    have := hv x; have := hv y; have := hmem hi
    unfold Apart at *; omega
  | subV x y =>
    refine binOps_eqOff _ (EqOff.refl _ _) fun i hi => ?_
    have := hv x; have := hv y; have := hmem hi
    unfold Apart at *; omega
  | mulV x y i =>
    refine (scaleOps_eqOff _ (EqOff.tmp _ (EqOff.refl _ _) (by omega)) (Op.run_self _ _ _) fun i hi => ?_).1
    have := hv x; have := hmem hi
    unfold Apart at *; omega
  | divV x y i =>
    refine (scaleOps_eqOff _ (EqOff.tmp _ (EqOff.refl _ _) (by omega)) (Op.run_self _ _ _) fun i hi => ?_).1
    have := hv x; have := hmem hi
    unfold Apart at *; omega
  | copyV x y =>
    refine copyOps_eqOff _ (EqOff.refl _ _) fun i hi => ?_
    have := hv y; have := hmem hi
    unfold Apart at *; omega
  | zeroV x =>
    simp only [Layout.ops, Layout.exec]
    rw [runOps_map (L.vaddr x) (fun _ _ => 0)]
    exact EqOff.refl _ _
  | normalizeV x =>
    obtain ⟨h1, h2⟩ := load1 (n := 3) (by omega) (hv x) m
    have e : EqOff (L.base .tmp) (fill (L.vaddr x) 3 (fun i => ((List.range 3).map fun i =>
        if 0 < ∑ i : Fin 3, m (L.vaddr x + i) * m (L.vaddr x + i) then m (L.vaddr x + i) / Real.sqrt (∑ i : Fin 3, m (L.vaddr x + i) * m (L.vaddr x + i))
        else m (L.vaddr x + i)).getD i 0) m) (L.exec P o (.normalizeV x) m) := by
      simp only [Layout.exec, memNormalize]
      split_ifs with hz
      · rw [memDiv_eq (ho 0 3)]
        refine eqOff_fill_fill (EqOff.refl _ _) fun i hi => ?_
        interval_cases i <;> rfl
      · intro y _
        unfold fill
        split_ifs with hy
        · have : ∀ i < 3, (List.map (fun i => m (L.vaddr x + i)) (List.range 3)).getD i 0 = m (L.vaddr x + i) := by
            intro i hi; interval_cases i <;> rfl
          refine (this (y - L.vaddr x) (by omega)).trans ?_
          congr 1; omega
        · rfl
    refine EqOff.trans (callOps_eqOff (ho 0 3) (by omega) (hv x) h1 fun m' hm' => ?_) e
    have h3 := h2 3 m' (by omega) hm'
    have hs : ∑ i : Fin 3, m' (L.base .tmp + i) * m' (L.base .tmp + i) = ∑ i : Fin 3, m (L.vaddr x + i) * m (L.vaddr x + i) :=
      Finset.sum_congr rfl fun i _ => by rw [h3 i i.2]
    simp only [hs]
    refine List.map_congr_left fun i hi => ?_
    rw [h3 i (List.mem_range.mp hi)]
  | addW x y =>
    simp only [Layout.ops, runOps_append]
    refine binOps_eqOff _ (binOps_eqOff _ (EqOff.refl _ _) fun i hi => ?_) fun i hi => ?_
    all_goals
      have := hw x; have := hw y; have := hmem hi
      unfold Apart at *; omega
  | subW x y =>
    simp only [Layout.ops, runOps_append]
    refine binOps_eqOff _ (binOps_eqOff _ (EqOff.refl _ _) fun i hi => ?_) fun i hi => ?_
    all_goals
      have := hw x; have := hw y; have := hmem hi
      unfold Apart at *; omega
  | mulW x y i =>
    simp only [Layout.ops, runOps_append, runOps_cons]
    have h1 := scaleOps_eqOff (f := (· * ·)) (a := L.base (.wrench x)) (c := m (L.vaddr y + i)) (o 0 3)
      (EqOff.tmp (d := L.base .tmp + 1) (fun m => m (L.vaddr y + i)) (EqOff.refl (L.base .tmp) m) (by omega)) (Op.run_self _ _ _)
      (fun i hi => by have := hw x; have := hmem hi; unfold Apart at *; omega)
    exact (scaleOps_eqOff _ h1.1 h1.2 fun i hi => by have := hw x; have := hmem hi; unfold Apart at *; omega).1
  | divW x y i =>
    simp only [Layout.ops, runOps_append, runOps_cons]
    have h1 := scaleOps_eqOff (f := (· / ·)) (a := L.base (.wrench x)) (c := m (L.vaddr y + i)) (o 0 3)
      (EqOff.tmp (d := L.base .tmp + 1) (fun m => m (L.vaddr y + i)) (EqOff.refl (L.base .tmp) m) (by omega)) (Op.run_self _ _ _)
      (fun i hi => by have := hw x; have := hmem hi; unfold Apart at *; omega)
    exact (scaleOps_eqOff _ h1.1 h1.2 fun i hi => by have := hw x; have := hmem hi; unfold Apart at *; omega).1
  | copyW x y =>
    simp only [Layout.ops, runOps_append]
    refine copyOps_eqOff _ (copyOps_eqOff _ (EqOff.refl _ _) fun i hi => ?_) fun i hi => ?_
    all_goals
      have := hw x; have := hw y; have := hmem hi
      unfold Apart at *; omega
  | invert r =>
    have h9r := h9 (L.rkind r)
    obtain ⟨h1, h2⟩ := load1 (by omega) (hr r) m
    refine EqOff.trans (callOps_eqOff (l := repStore _ (inverted (L.rkind r) (loadR m (L.raddr r) _))) (ho 1 _) (by omega) (hr r) h1
      fun m' hm' => ?_) ?_
    · rw [loadR_shift _ (h2 _ m' (by omega) hm')]
    · obtain ⟨f, hf⟩ := memInvert_eq (t := L.base .tmp) (a := L.raddr r) (L.rkind r) (ho 0 _) (ho 1 _) (by have := hr r; unfold Apart at *; omega) m
      simp only [Layout.exec, hf]
      exact eqOff_fill_fill (eqOff_fill _ (EqOff.refl _ m) (by omega)).symm fun i _ => rfl
  | setUnique r =>
    have h9r := h9 (L.rkind r)
    obtain ⟨h1, h2⟩ := load1 (by omega) (hr r) m
    refine EqOff.trans (callOps_eqOff (ho 0 _) (by omega) (hr r) h1 fun m' hm' => ?_)
      (memAssign_eqOff (ho 0 _) (repStore_length _ _) (by omega) (hr r) m)
    rw [loadR_shift _ (h2 _ m' (by omega) hm')]
  | convert r s =>
    have h9r := h9 (L.rkind r); have h9s := h9 (L.rkind s)
    obtain ⟨h1, h2⟩ := load1 (by omega) (hr s) m
    refine EqOff.trans (callOps_eqOff (ho 0 _) (by omega) (hr r) h1 fun m' hm' => ?_)
      (memAssign_eqOff (ho 0 _) (repStore_length _ _) (by omega) (hr r) m)
    rw [loadR_shift _ (h2 _ m' (by omega) hm')]
  | product r s u =>
    have h9r := h9 (L.rkind r); have h9s := h9 (L.rkind s); have h9u := h9 (L.rkind u)
    obtain ⟨h1, h2⟩ := load2 (by omega) (by omega) (hr s) (hr u) m
    refine EqOff.trans (callOps_eqOff (ho 0 _) (by omega) (hr r) h1 fun m' hm' => ?_)
      (memAssign_eqOff (ho 0 _) (repStore_length _ _) (by omega) (hr r) m)
    obtain ⟨h3, h4⟩ := h2 _ m' (by omega) hm'
    rw [loadR_shift _ h3, loadR_shift _ h4]
  | rotate x r y =>
    have h9r := h9 (L.rkind r)
    obtain ⟨h1, h2⟩ := load2 (by omega) (by omega) (hr r) (hv y) m
    refine EqOff.trans (callOps_eqOff (ho 0 _) (by omega) (hv x) h1 fun m' hm' => ?_)
      (memAssign_eqOff (n := 3) (ho 0 _) rfl (by omega) (hv x) m)
    obtain ⟨h3, h4⟩ := h2 _ m' (by omega) hm'
    simp only [loadR_shift _ h3, loadV_shift h4]
  | transform x p y =>
    have h9r := h9 L.poseKind
    obtain ⟨h1, h2⟩ := load2 (by omega) (by omega) (hp p) (hv y) m
    refine EqOff.trans (callOps_eqOff (ho 0 _) (by omega) (hv x) h1 fun m' hm' => ?_)
      (memAssign_eqOff (n := 3) (ho 0 _) rfl (by omega) (hv x) m)
    obtain ⟨h3, h4⟩ := h2 _ m' (by omega) hm'
    simp only [loadP_shift _ h3, loadV_shift h4]
  | productP p q s =>
    have h9r := h9 L.poseKind
    obtain ⟨h1, h2⟩ := load2 (by omega) (by omega) (hp q) (hp s) m
    refine EqOff.trans (callOps_eqOff (ho 0 _) (by omega) (hp p) h1 fun m' hm' => ?_)
      (memAssign_eqOff (ho 0 _) (by simp [poseStore, repStore_length]; omega) (by omega) (hp p) m)
    obtain ⟨h3, h4⟩ := h2 _ m' (by omega) hm'
    rw [loadP_shift _ h3, loadP_shift _ h4]

theorem values_opsAll (P : Prec) (cs : List (Call × (ℕ → ℕ → List ℕ))) (ho : ∀ c ∈ cs, ∀ j n, IsOrder n (c.2 j n)) (m : Mem) :
    values L (runOps (L.opsAll P cs) m) = (values L m).runAll P (cs.map Prod.fst) := by
  induction cs generalizing m with
  | nil => rfl
  | cons c cs ih =>
    have e : L.opsAll P (c :: cs) = L.ops P c.2 c.1 ++ L.opsAll P cs := rfl
    rw [e, runOps_append, ih (fun c' hc' => ho c' (List.mem_cons_of_mem _ hc')),
      values_eqOff hL (ops_eqOff hL P c.2 (ho c (List.mem_cons_self ..)) c.1 m), C101_statement hL P c.2 (ho c (List.mem_cons_self ..))]
    rfl

end

/-! ## Footprints -/

theorem acc_load {L : Layout} {c : Call} {d y : ℕ} (hd : L.base .tmp ≤ d ∧ d < L.base .tmp + 36) (hy : Touches L c y) :
    Accesses L c ⟨d, fun m => m y⟩ := .inl ⟨hd, .inr ⟨y, hy, fun _ _ _ h => h⟩⟩

theorem acc_bin {L : Layout} {c : Call} {a b : ℕ} {f : ℝ → ℝ → ℝ} {o : List ℕ}
    (ha : ∀ i ∈ o, InCells (written L c) (a + i)) (hb : ∀ i ∈ o, Touches L c (b + i)) :
    ∀ p ∈ binOps (L.base .tmp) a b f o, Accesses L c p := by
  intro p hp
  obtain ⟨i, hi, hp⟩ := List.mem_flatMap.mp hp
  simp only [List.mem_cons, List.not_mem_nil, or_false] at hp
  rcases hp with rfl | rfl | rfl
  · exact acc_load (by omega) (.inl (ha i hi))
  · exact acc_load (by omega) (hb i hi)
  · refine .inr ⟨ha i hi, fun m m' h => ?_⟩
    show f (m _) (m _) = f (m' _) (m' _)
    rw [h _ (by omega), h _ (by omega)]

theorem acc_scale {L : Layout} {c : Call} {a : ℕ} {f : ℝ → ℝ → ℝ} {o : List ℕ} (ha : ∀ i ∈ o, InCells (written L c) (a + i)) :
    ∀ p ∈ scaleOps (L.base .tmp) a f o, Accesses L c p := by
  intro p hp
  obtain ⟨i, hi, hp⟩ := List.mem_flatMap.mp hp
  simp only [List.mem_cons, List.not_mem_nil, or_false] at hp
  rcases hp with rfl | rfl
  · exact acc_load (by omega) (.inl (ha i hi))
  · refine .inr ⟨ha i hi, fun m m' h => ?_⟩
    show f (m _) (m _) = f (m' _) (m' _)
    rw [h _ (by omega), h _ (by omega)]

theorem acc_copy {L : Layout} {c : Call} {a b : ℕ} {o : List ℕ}
    (ha : ∀ i ∈ o, InCells (written L c) (a + i)) (hb : ∀ i ∈ o, Touches L c (b + i)) :
    ∀ p ∈ copyOps (L.base .tmp) a b o, Accesses L c p := by
  intro p hp
  obtain ⟨i, hi, hp⟩ := List.mem_flatMap.mp hp
  simp only [List.mem_cons, List.not_mem_nil, or_false] at hp
  rcases hp with rfl | rfl
  · exact acc_load (by omega) (hb i hi)
  · exact .inr ⟨ha i hi, fun m m' h => h _ (by omega)⟩

theorem acc_loads {L : Layout} {c : Call} {d b n : ℕ} (hn : n ≤ 12) (hd : d = 0 ∨ d = 12) (hb : ∀ i < n, Touches L c (b + i)) :
    ∀ p ∈ loadOps (L.base .tmp + d) b n, Accesses L c p := by
  intro p hp
  obtain ⟨i, hi, rfl⟩ := List.mem_map.mp hp
  have := List.mem_range.mp hi
  exact acc_load (by omega) (hb i this)

theorem acc_compute {L : Layout} {c : Call} {n : ℕ} {F : Mem → List ℝ} (hn : n ≤ 12)
    (hF : ∀ m m' : Mem, (∀ x, L.base .tmp ≤ x ∧ x < L.base .tmp + 36 → m x = m' x) → F m = F m') :
    ∀ p ∈ computeOps (L.base .tmp) n F, Accesses L c p := by
  intro p hp
  obtain ⟨i, hi, rfl⟩ := List.mem_map.mp hp
  have := List.mem_range.mp hi
  refine .inl ⟨by show _ ∧ _; simp only; omega, .inl fun m m' h => ?_⟩
  show (F m).getD i 0 = (F m').getD i 0
  rw [hF m m' h]

theorem acc_store {L : Layout} {c : Call} {a n : ℕ} {o : List ℕ} (hn : n ≤ 12) (ho : IsOrder n o) (ha : written L c = (a, n)) :
    ∀ p ∈ storeOps (L.base .tmp) a o, Accesses L c p := by
  intro p hp
  obtain ⟨i, hi, rfl⟩ := List.mem_map.mp hp
  have := (ho.mem i).mp hi
  refine .inr ⟨by rw [ha]; show _ ∧ _; simp only; omega, fun m m' h => h _ (by omega)⟩

/-- **C102, single accesses.**  Every operation of a call loads at most one number of a variable the call names, into a temporary, or computes on temporaries,
or stores one number in the target: the model of a call is as fine as the hardware's, and arguments passed by constant reference are never
written. -/
theorem C102_accesses (L : Layout) (P : Prec) (o : ℕ → ℕ → List ℕ) (ho : ∀ j n, IsOrder n (o j n)) (c : Call) :
    ∀ p ∈ L.ops P o c, Accesses L c p := by
  have hmem : ∀ {j n i}, i ∈ o j n → i < n := fun {j n i} h => ((ho j n).mem i).mp h
  have h9 := repSize_le
  have hin : ∀ {a n i : ℕ}, i < n → InCells (a, n) (a + i) := fun {a n i} h => ⟨by simp, by simpa using h⟩
  have happ : ∀ {l l' : List Op}, (∀ p ∈ l, Accesses L c p) → (∀ p ∈ l', Accesses L c p) → ∀ p ∈ l ++ l', Accesses L c p :=
    fun h h' p hp => (List.mem_append.mp hp).elim (h p) (h' p)
  have hcons : ∀ {q : Op} {l : List Op}, Accesses L c q → (∀ p ∈ l, Accesses L c p) → ∀ p ∈ q :: l, Accesses L c p :=
    fun h h' p hp => (List.mem_cons.mp hp).elim (fun e => e ▸ h) (h' p)
  cases c with
  | addV x y => exact acc_bin (fun i hi => hin (hmem hi)) fun i hi => .inr ⟨_, List.mem_singleton_self _, hin (hmem hi)⟩
  | subV x y => exact acc_bin (fun i hi => hin (hmem hi)) fun i hi => .inr ⟨_, List.mem_singleton_self _, hin (hmem hi)⟩
  | mulV x y i =>
    exact hcons (acc_load (by omega) (.inr ⟨_, List.mem_singleton_self _, by unfold InCells; simp⟩)) (acc_scale fun i hi => hin (hmem hi))
  | divV x y i =>
    exact hcons (acc_load (by omega) (.inr ⟨_, List.mem_singleton_self _, by unfold InCells; simp⟩)) (acc_scale fun i hi => hin (hmem hi))
  | copyV x y => exact acc_copy (fun i hi => hin (hmem hi)) fun i hi => .inr ⟨_, List.mem_singleton_self _, hin (hmem hi)⟩
  | zeroV x =>
    intro p hp
    obtain ⟨i, hi, rfl⟩ := List.mem_map.mp hp
    exact .inr ⟨hin (hmem hi), fun _ _ _ => rfl⟩
  | normalizeV x =>
    refine happ (happ (acc_loads (d := 0) (by omega) (by omega) fun i hi => .inl (hin hi)) (acc_compute (by omega) fun m m' h => ?_))
      (acc_store (by omega) (ho 0 3) rfl)
    have hs : ∑ i : Fin 3, m (L.base .tmp + i) * m (L.base .tmp + i) = ∑ i : Fin 3, m' (L.base .tmp + i) * m' (L.base .tmp + i) :=
      Finset.sum_congr rfl fun i _ => by rw [h _ (by omega)]
    simp only [hs]
    refine List.map_congr_left fun i hi => ?_
    have := List.mem_range.mp hi
    rw [h _ (by omega)]
  | addW x y =>
    refine happ (acc_bin (fun i hi => ?_) fun i hi => .inr ⟨_, List.mem_singleton_self _, ?_⟩)
      (acc_bin (fun i hi => ?_) fun i hi => .inr ⟨_, List.mem_singleton_self _, ?_⟩)
    all_goals have := hmem hi; show _ ∧ _; simp only [written]; omega
  | subW x y =>
    refine happ (acc_bin (fun i hi => ?_) fun i hi => .inr ⟨_, List.mem_singleton_self _, ?_⟩)
      (acc_bin (fun i hi => ?_) fun i hi => .inr ⟨_, List.mem_singleton_self _, ?_⟩)
    all_goals have := hmem hi; show _ ∧ _; simp only [written]; omega
  | mulW x y i =>
    refine hcons (acc_load (by omega) (.inr ⟨_, List.mem_singleton_self _, by unfold InCells; simp⟩))
      (happ (acc_scale fun i hi => ?_) (acc_scale fun i hi => ?_))
    all_goals have := hmem hi; show _ ∧ _; simp only [written]; omega
  | divW x y i =>
    refine hcons (acc_load (by omega) (.inr ⟨_, List.mem_singleton_self _, by unfold InCells; simp⟩))
      (happ (acc_scale fun i hi => ?_) (acc_scale fun i hi => ?_))
    all_goals have := hmem hi; show _ ∧ _; simp only [written]; omega
  | copyW x y =>
    refine happ (acc_copy (fun i hi => ?_) fun i hi => .inr ⟨_, List.mem_singleton_self _, ?_⟩)
      (acc_copy (fun i hi => ?_) fun i hi => .inr ⟨_, List.mem_singleton_self _, ?_⟩)
    all_goals have := hmem hi; show _ ∧ _; simp only [written]; omega
  | invert r =>
    have h9r := h9 (L.rkind r)
    refine happ (happ (acc_loads (d := 0) (by omega) (by omega) fun i hi => .inl (hin hi)) (acc_compute (by omega) fun m m' h => ?_))
      (acc_store (by omega) (ho 1 _) rfl)
    rw [loadR_shift _ fun i hi => h _ (by omega)]
  | setUnique r =>
    have h9r := h9 (L.rkind r)
    refine happ (happ (acc_loads (d := 0) (by omega) (by omega) fun i hi => .inl (hin hi)) (acc_compute (by omega) fun m m' h => ?_))
      (acc_store (by omega) (ho 0 _) rfl)
    rw [loadR_shift _ fun i hi => h _ (by omega)]
  | convert r s =>
    have h9r := h9 (L.rkind r); have h9s := h9 (L.rkind s)
    refine happ (happ (acc_loads (d := 0) (by omega) (by omega) fun i hi => .inr ⟨_, List.mem_singleton_self _, hin hi⟩)
      (acc_compute (by omega) fun m m' h => ?_)) (acc_store (by omega) (ho 0 _) rfl)
    rw [loadR_shift _ fun i hi => h _ (by omega)]
  | product r s u =>
    have h9r := h9 (L.rkind r); have h9s := h9 (L.rkind s); have h9u := h9 (L.rkind u)
    refine happ (happ (happ (acc_loads (d := 0) (by omega) (by omega) fun i hi => .inr ⟨_, List.mem_cons_self .., hin hi⟩)
      (acc_loads (d := 12) (by omega) (by omega) fun i hi => .inr ⟨_, List.mem_cons_of_mem _ (List.mem_cons_self ..), hin hi⟩))
      (acc_compute (by omega) fun m m' h => ?_)) (acc_store (by omega) (ho 0 _) rfl)
    rw [loadR_shift _ fun i hi => h _ (by omega), loadR_shift (a := L.base .tmp + 12) _ fun i hi => h _ (by omega)]
  | rotate x r y =>
    have h9r := h9 (L.rkind r)
    refine happ (happ (happ (acc_loads (d := 0) (by omega) (by omega) fun i hi => .inr ⟨_, List.mem_cons_self .., hin hi⟩)
      (acc_loads (d := 12) (by omega) (by omega) fun i hi => .inr ⟨_, List.mem_cons_of_mem _ (List.mem_cons_self ..), hin hi⟩))
      (acc_compute (by omega) fun m m' h => ?_)) (acc_store (by omega) (ho 0 _) rfl)
    rw [loadR_shift (m := m') _ fun i hi => h _ (by omega), loadV_shift (a := L.base .tmp + 12) fun i hi => h _ (by omega)]
  | transform x p y =>
    have h9r := h9 L.poseKind
    refine happ (happ (happ (acc_loads (d := 0) (by omega) (by omega) fun i hi => .inr ⟨_, List.mem_cons_self .., hin hi⟩)
      (acc_loads (d := 12) (by omega) (by omega) fun i hi => .inr ⟨_, List.mem_cons_of_mem _ (List.mem_cons_self ..), hin hi⟩))
      (acc_compute (by omega) fun m m' h => ?_)) (acc_store (by omega) (ho 0 _) rfl)
    rw [loadP_shift (m := m') _ fun i hi => h _ (by omega), loadV_shift (a := L.base .tmp + 12) fun i hi => h _ (by omega)]
  | productP p q s =>
    have h9r := h9 L.poseKind
    refine happ (happ (happ (acc_loads (d := 0) (by omega) (by omega) fun i hi => .inr ⟨_, List.mem_cons_self .., hin hi⟩)
      (acc_loads (d := 12) (by omega) (by omega) fun i hi => .inr ⟨_, List.mem_cons_of_mem _ (List.mem_cons_self ..), hin hi⟩))
      (acc_compute (by omega) fun m m' h => ?_)) (acc_store (by omega) (ho 0 _) rfl)
    rw [loadP_shift (m := m') _ fun i hi => h _ (by omega), loadP_shift (a := L.base .tmp + 12) _ fun i hi => h _ (by omega)]

/-! ## Schedules -/

section
variable {n : ℕ}

/-- What a thread sees does not depend on the others if they do not change it. -/
theorem view (i : Fin n) (V : Set ℕ) (s : List (Fin n × Op)) :
    ∀ m m' : Mem, (∀ x ∈ V, m x = m' x) →
      (∀ p ∈ s, p.1 = i → ∀ m m' : Mem, (∀ x ∈ V, m x = m' x) → p.2.val m = p.2.val m') →
      (∀ p ∈ s, p.1 ≠ i → p.2.dst ∉ V) →
      ∀ x ∈ V, runOps (s.map Prod.snd) m x = runOps ((s.filter fun p => p.1 = i).map Prod.snd) m' x := by
  induction s with
  | nil => intro m m' h _ _; exact h
  | cons q s ih =>
    intro m m' h h1 h2
    have hs1 := fun p hp => h1 p (List.mem_cons_of_mem q hp)
    have hs2 := fun p hp => h2 p (List.mem_cons_of_mem q hp)
    by_cases hq : q.1 = i
    · rw [List.filter_cons_of_pos (by simpa using hq)]
      refine ih (q.2.run m) (q.2.run m') (fun x hx => ?_) hs1 hs2
      unfold Op.run
      rw [h1 q (List.mem_cons_self ..) hq m m' h]
      by_cases e : x = q.2.dst
      · subst e; rw [Function.update_self, Function.update_self]
      · rw [Function.update_of_ne e, Function.update_of_ne e]; exact h x hx
    · rw [List.filter_cons_of_neg (by simpa using hq)]
      refine ih (q.2.run m) m' (fun x hx => ?_) hs1 hs2
      unfold Op.run
      rw [Function.update_of_ne (by rintro rfl; exact h2 q (List.mem_cons_self ..) hq hx)]
      exact h x hx

theorem runOps_untouched (l : List Op) (x : ℕ) : ∀ m, (∀ p ∈ l, p.dst ≠ x) → runOps l m x = m x := by
  induction l with
  | nil => intro m _; rfl
  | cons p l ih =>
    intro m h
    refine (ih _ fun q hq => h q (List.mem_cons_of_mem _ hq)).trans ?_
    exact Function.update_of_ne (Ne.symm (h p (List.mem_cons_self ..))) ..

/-- The threads one after the other. -/
def seqSchedule (prog : Fin n → List Op) : List (Fin n × Op) := (List.finRange n).flatMap fun i => (prog i).map fun p => (i, p)

theorem isSchedule_seq (prog : Fin n → List Op) : IsSchedule prog (seqSchedule prog) := by
  intro i
  unfold seqSchedule
  have key : ∀ l : List (Fin n), l.Nodup →
      ((l.flatMap fun i => (prog i).map fun p => (i, p)).filter fun p => p.1 = i).map Prod.snd = if i ∈ l then prog i else [] := by
    intro l hl
    induction l with
    | nil => simp
    | cons j l ih =>
      obtain ⟨hj, hl⟩ := List.nodup_cons.mp hl
      rw [List.flatMap_cons, List.filter_append, List.map_append, ih hl]
      by_cases e : j = i
      · subst e
        rw [if_neg hj, if_pos (List.mem_cons_self ..), List.append_nil, List.filter_eq_self.mpr (by simp)]
        simp
      · rw [List.filter_eq_nil_iff.mpr (by simp [e])]
        simp [Ne.symm e]
  rw [key _ (List.nodup_finRange n), if_pos (List.mem_finRange i)]

theorem vaddr_block (L : Layout) (x : VRef) : ∃ b, b ≠ Block.tmp ∧ L.base b ≤ L.vaddr x ∧ L.vaddr x + 3 ≤ L.base b + L.size b := by
  cases x with
  | var i => exact ⟨.vec i, by simp, by simp [Layout.vaddr], by simp [Layout.vaddr, Layout.size]⟩
  | force i => exact ⟨.wrench i, by simp, by simp [Layout.vaddr], by simp [Layout.vaddr, Layout.size]⟩
  | torque i => exact ⟨.wrench i, by simp, by simp [Layout.vaddr], by simp [Layout.vaddr, Layout.size]⟩
  | position i => exact ⟨.pose i, by simp, by simp [Layout.vaddr], by simp [Layout.vaddr, Layout.size]⟩

theorem raddr_block (L : Layout) (r : RRef) :
    ∃ b, b ≠ Block.tmp ∧ L.base b ≤ L.raddr r ∧ L.raddr r + repSize (L.rkind r) ≤ L.base b + L.size b := by
  cases r with
  | var i => exact ⟨.rot i, by simp, by simp [Layout.raddr], by simp [Layout.raddr, Layout.rkind, Layout.size]⟩
  | ofPose i => exact ⟨.pose i, by simp, by simp [Layout.raddr], by simp [Layout.raddr, Layout.rkind, Layout.size]; omega⟩

theorem touches_block {L : Layout} {c : Call} {x : ℕ} (h : Touches L c x) :
    ∃ b, b ≠ Block.tmp ∧ L.base b ≤ x ∧ x < L.base b + L.size b := by
  have hv : ∀ y, InCells (L.vaddr y, 3) x → ∃ b, b ≠ Block.tmp ∧ L.base b ≤ x ∧ x < L.base b + L.size b := by
    intro y hy
    obtain ⟨b, h1, h2, h3⟩ := vaddr_block L y
    unfold InCells at hy; simp only at hy
    exact ⟨b, h1, by omega, by omega⟩
  have hv1 : ∀ y (i : Fin 3), InCells (L.vaddr y + i, 1) x → ∃ b, b ≠ Block.tmp ∧ L.base b ≤ x ∧ x < L.base b + L.size b := by
    intro y i hy
    refine hv y ?_
    unfold InCells at *; simp only at *; omega
  have hr : ∀ r, InCells (L.raddr r, repSize (L.rkind r)) x → ∃ b, b ≠ Block.tmp ∧ L.base b ≤ x ∧ x < L.base b + L.size b := by
    intro r hy
    obtain ⟨b, h1, h2, h3⟩ := raddr_block L r
    unfold InCells at hy; simp only at hy
    exact ⟨b, h1, by omega, by omega⟩
  have hw : ∀ j, InCells (L.base (.wrench j), 6) x → ∃ b, b ≠ Block.tmp ∧ L.base b ≤ x ∧ x < L.base b + L.size b :=
    fun j hy => ⟨.wrench j, by simp, hy⟩
  have hp : ∀ j, InCells (L.base (.pose j), 3 + repSize L.poseKind) x → ∃ b, b ≠ Block.tmp ∧ L.base b ≤ x ∧ x < L.base b + L.size b :=
    fun j hy => ⟨.pose j, by simp, hy⟩
  rcases h with h | ⟨r, hr', h⟩
  · cases c <;> first | exact hv _ h | exact hw _ h | exact hr _ h | exact hp _ h
  · cases c <;> simp only [argCells, List.mem_cons, List.not_mem_nil, or_false] at hr'
    all_goals first
      | (subst hr'; first | exact hv _ h | exact hv1 _ _ h | exact hw _ h | exact hr _ h)
      | (rcases hr' with rfl | rfl <;> first | exact hv _ h | exact hw _ h | exact hr _ h | exact hp _ h)

theorem withTmp_touches (L : Layout) (τ : ℕ) (c : Call) (x : ℕ) : Touches (L.withTmp τ) c x ↔ Touches L c x := by
  have hv : ∀ y, (L.withTmp τ).vaddr y = L.vaddr y := fun y => by cases y <;> rfl
  have hr : ∀ y, (L.withTmp τ).raddr y = L.raddr y := fun y => by cases y <;> rfl
  have hk : ∀ y, (L.withTmp τ).rkind y = L.rkind y := fun y => by cases y <;> rfl
  have h1 : written (L.withTmp τ) c = written L c := by cases c <;> simp only [written, hv, hr, hk] <;> rfl
  have h2 : argCells (L.withTmp τ) c = argCells L c := by cases c <;> simp only [argCells, hv, hr, hk] <;> rfl
  unfold Touches
  rw [h1, h2]

theorem withTmp_written (L : Layout) (τ : ℕ) (c : Call) : written (L.withTmp τ) c = written L c := by
  have hv : ∀ y, (L.withTmp τ).vaddr y = L.vaddr y := fun y => by cases y <;> rfl
  have hr : ∀ y, (L.withTmp τ).raddr y = L.raddr y := fun y => by cases y <;> rfl
  have hk : ∀ y, (L.withTmp τ).rkind y = L.rkind y := fun y => by cases y <;> rfl
  cases c <;> simp only [written, hv, hr, hk] <;> rfl

theorem IsSchedule.mem {prog : Fin n → List Op} {s : List (Fin n × Op)} (h : IsSchedule prog s) {p : Fin n × Op} (hp : p ∈ s) :
    p.2 ∈ prog p.1 := by
  rw [← h p.1]
  exact List.mem_map.mpr ⟨p, List.mem_filter.mpr ⟨hp, by simp⟩, rfl⟩

theorem ops_dst {L : Layout} {t : ℕ} {P : Prec} {cs : ThreadProg} (ho : ∀ c ∈ cs, ∀ j n, IsOrder n (c.2 j n)) :
    ∀ p ∈ (L.withTmp t).opsAll P cs, InCells (t, 36) p.dst ∨ ∃ c ∈ cs.map Prod.fst, InCells (written L c) p.dst := by
  intro p hp
  obtain ⟨c, hc, hp⟩ := List.mem_flatMap.mp hp
  rcases C102_accesses _ P c.2 (ho c hc) c.1 p hp with h | h
  · exact .inl h.1
  · rw [withTmp_written] at h; exact .inr ⟨c.1, List.mem_map.mpr ⟨c, hc, rfl⟩, h.1⟩

theorem block_tmp {L : Layout} {τ : Fin n → ℕ} (hS : SeparateThreads L τ) (i : Fin n) {b : Block} {x : ℕ} (hb : b ≠ .tmp)
    (hx : L.base b ≤ x ∧ x < L.base b + L.size b) : ¬ InCells (τ i, 36) x := by
  intro hw
  have h1 := hS.1 i b .tmp hb
  have e1 : (L.withTmp (τ i)).base .tmp = τ i := rfl
  have e2 : (L.withTmp (τ i)).size .tmp = 36 := rfl
  have e3 : (L.withTmp (τ i)).base b = L.base b := by cases b <;> first | rfl | exact absurd rfl hb
  have e4 : (L.withTmp (τ i)).size b = L.size b := by cases b <;> rfl
  rw [e1, e2, e3, e4] at h1
  unfold InCells at hw; simp only at hw
  omega

/-- **C102, isolation.**  At every moment of an execution of threads without data race, finished or not, a thread finds in the cells it touches what it
would find if it ran alone. -/
theorem C102_isolated (L : Layout) (τ : Fin n → ℕ) (hS : SeparateThreads L τ) (P : Prec) (prog : Fin n → ThreadProg)
    (ho : ∀ i, ∀ c ∈ prog i, ∀ j n, IsOrder n (c.2 j n)) (hR : RaceFree L fun i => (prog i).map Prod.fst)
    (s : List (Fin n × Op)) (hs : ∀ i, (s.filter fun p => p.1 = i).map Prod.snd <+: (L.withTmp (τ i)).opsAll P (prog i)) (m : Mem)
    (i : Fin n) (x : ℕ) (hx : ∃ c ∈ prog i, Touches L c.1 x) :
    runOps (s.map Prod.snd) m x = runOps ((s.filter fun p => p.1 = i).map Prod.snd) m x := by
  have hmem : ∀ p ∈ s, p.2 ∈ (L.withTmp (τ p.1)).opsAll P (prog p.1) := fun p hp =>
    (hs p.1).subset (List.mem_map.mpr ⟨p, List.mem_filter.mpr ⟨hp, by simp⟩, rfl⟩)
  obtain ⟨V, hV⟩ : ∃ V : Set ℕ, V = {y | InCells (τ i, 36) y ∨ ∃ c ∈ prog i, Touches L c.1 y} := ⟨_, rfl⟩
  refine view i V s m m (fun _ _ => rfl) ?_ ?_ x (by rw [hV]; exact .inr hx)
  · intro p hp hpi m₁ m₂ h12
    have hp' := hmem p hp
    rw [hpi] at hp'
    obtain ⟨c, hc, hp'⟩ := List.mem_flatMap.mp hp'
    have htmp : ∀ y, τ i ≤ y ∧ y < τ i + 36 → m₁ y = m₂ y := fun y hy => h12 y (by rw [hV]; exact .inl hy)
    rcases C102_accesses _ P c.2 (ho i c hc) c.1 p.2 hp' with ⟨-, h | ⟨y, hy, h⟩⟩ | ⟨-, h⟩
    · exact h _ _ htmp
    · rw [withTmp_touches] at hy
      exact h _ _ htmp (h12 y (by rw [hV]; exact .inr ⟨c, hc, hy⟩))
    · exact h _ _ htmp
  · intro p hp hpi hpV
    rw [hV] at hpV
    rcases ops_dst (ho p.1) p.2 (hmem p hp) with hd | ⟨c, hc, hd⟩
    · rcases hpV with hv | ⟨c', hc', hv⟩
      · have := hS.2 p.1 i hpi
        unfold Apart at this; unfold InCells at hd hv; simp only at hd hv; omega
      · obtain ⟨b', hb', hx'⟩ := touches_block hv
        exact block_tmp hS p.1 hb' hx' hd
    · rcases hpV with hv | ⟨c', hc', hv⟩
      · obtain ⟨b', hb', hx'⟩ := touches_block (.inl hd : Touches L c p.2.dst)
        exact block_tmp hS i hb' hx' hv
      · exact hR p.1 i hpi c hc c'.1 (List.mem_map.mpr ⟨c', hc', rfl⟩) _ hd hv

/-- Any two executions leave the same values in the variables. -/
theorem schedules_agree {L : Layout} {τ : Fin n → ℕ} (hS : SeparateThreads L τ) (P : Prec) (prog : Fin n → ThreadProg)
    (ho : ∀ i, ∀ c ∈ prog i, ∀ j n, IsOrder n (c.2 j n)) (hR : RaceFree L fun i => (prog i).map Prod.fst)
    {s s' : List (Fin n × Op)} (hs : IsSchedule (fun i => (L.withTmp (τ i)).opsAll P (prog i)) s)
    (hs' : IsSchedule (fun i => (L.withTmp (τ i)).opsAll P (prog i)) s') (m : Mem) {b : Block} (hb : b ≠ .tmp) {x : ℕ}
    (hx : L.base b ≤ x ∧ x < L.base b + L.size b) :
    runOps (s.map Prod.snd) m x = runOps (s'.map Prod.snd) m x := by
  by_cases ht : ∃ i, ∃ c ∈ prog i, Touches L c.1 x
  · obtain ⟨i, hi⟩ := ht
    rw [C102_isolated L τ hS P prog ho hR s (fun j => by rw [hs j]) m i x hi,
      C102_isolated L τ hS P prog ho hR s' (fun j => by rw [hs' j]) m i x hi, hs i, hs' i]
  · have key : ∀ s : List (Fin n × Op), IsSchedule (fun i => (L.withTmp (τ i)).opsAll P (prog i)) s → runOps (s.map Prod.snd) m x = m x := by
      intro s hs
      refine runOps_untouched _ x m ?_
      intro p hp e
      obtain ⟨q, hq, rfl⟩ := List.mem_map.mp hp
      rcases ops_dst (ho q.1) q.2 (hs.mem hq) with hd | ⟨c, hc, hd⟩
      · exact block_tmp hS q.1 hb hx (e ▸ hd)
      · obtain ⟨c', hc', rfl⟩ := List.mem_map.mp hc
        exact ht ⟨q.1, c', hc', .inl (e ▸ hd)⟩
    rw [key s hs, key s' hs']

theorem runAll_append {kind : ℕ → Kind} {k : Kind} (P : Prec) (l l' : List Call) :
    ∀ s : Values kind k, s.runAll P (l ++ l') = (s.runAll P l).runAll P l' := by
  induction l with
  | nil => intro s; rfl
  | cons c l ih => intro s; exact ih _

/-- **C102, threads.**  Any number of threads with programs of any length, without data race, under every schedule of their single loads and stores: the
final values of all variables are those of the programs executed one after the other.  Objects that no thread changes may be shared by all. -/
theorem C102_threads (L : Layout) (τ : Fin n → ℕ) (hS : SeparateThreads L τ) (P : Prec) (prog : Fin n → ThreadProg)
    (ho : ∀ i, ∀ c ∈ prog i, ∀ j n, IsOrder n (c.2 j n)) (hR : RaceFree L fun i => (prog i).map Prod.fst)
    (s : List (Fin n × Op)) (hs : IsSchedule (fun i => (L.withTmp (τ i)).opsAll P (prog i)) s) (m : Mem) :
    values L (runOps (s.map Prod.snd) m) = (values L m).runAll P (inSequence fun i => (prog i).map Prod.fst) := by
  have e1 : values L (runOps (s.map Prod.snd) m)
      = values L (runOps ((seqSchedule fun i => (L.withTmp (τ i)).opsAll P (prog i)).map Prod.snd) m) := by
    have key : ∀ b, b ≠ Block.tmp → ∀ i < L.size b, runOps (s.map Prod.snd) m (L.base b + i)
        = runOps ((seqSchedule fun i => (L.withTmp (τ i)).opsAll P (prog i)).map Prod.snd) m (L.base b + i) :=
      fun b hb i hi => schedules_agree hS P prog ho hR hs (isSchedule_seq _) m hb (by omega)
    apply Values.ext <;> funext j
    · exact loadV_congr (key (.vec j) (by simp))
    · exact loadW_congr (key (.wrench j) (by simp))
    · exact loadR_congr _ (key (.rot j) (by simp))
    · exact loadP_congr _ (key (.pose j) (by simp))
  rw [e1]
  unfold inSequence seqSchedule
  clear e1 hs
  generalize List.finRange n = l
  induction l generalizing m with
  | nil => rfl
  | cons i l ih =>
    rw [List.flatMap_cons, List.map_append, runOps_append, List.flatMap_cons, runAll_append]
    have e2 : (((L.withTmp (τ i)).opsAll P (prog i)).map (fun p => (i, p))).map Prod.snd = (L.withTmp (τ i)).opsAll P (prog i) := by
      rw [List.map_map]; exact List.map_id _
    have e3 : values L (runOps ((L.withTmp (τ i)).opsAll P (prog i)) m) = (values L m).runAll P ((prog i).map Prod.fst) :=
      values_opsAll (hS.1 i) P (prog i) (ho i) m
    rw [e2, ← e3]
    exact ih _

end

theorem exLayout_separate (τ : ℕ) (hτ : τ + 36 ≤ 92) : Separate (exLayout.withTmp τ) := by
  have h := C101_example.1
  have e1 : (exLayout.withTmp τ).base .tmp = τ := rfl
  have s1 : (exLayout.withTmp τ).size .tmp = 36 := rfl
  have hge : ∀ b, b ≠ .tmp → 92 ≤ (exLayout.withTmp τ).base b := by
    intro b hb
    cases b with
    | vec i => show 92 ≤ 92 + 40 * i; omega
    | wrench i => show 92 ≤ 95 + 40 * i; omega
    | rot i => show 92 ≤ 101 + 40 * i; omega
    | pose i => show 92 ≤ 110 + 40 * i; omega
    | tmp => exact absurd rfl hb
  intro b b' hne
  by_cases hb : b = .tmp
  · subst hb
    have := hge b' (fun h => hne h.symm)
    omega
  · by_cases hb' : b' = .tmp
    · subst hb'
      have := hge b hb
      omega
    · have := h b b' hne
      have e3 : ∀ b, b ≠ .tmp → (exLayout.withTmp τ).base b = exLayout.base b := fun b hb => by
        cases b <;> first | rfl | exact absurd rfl hb
      have e4 : ∀ b, (exLayout.withTmp τ).size b = exLayout.size b := fun b => by cases b <;> rfl
      rw [e3 b hb, e3 b' hb', e4, e4]; exact this

/-- Two threads: the temporaries at 0 and at 40. -/
theorem exThreads_separate : SeparateThreads exLayout (![0, 40] : Fin 2 → ℕ) := by
  refine ⟨fun i => ?_, fun i j h => ?_⟩
  · fin_cases i
    · exact exLayout_separate 0 (by omega)
    · exact exLayout_separate 40 (by omega)
  · fin_cases i <;> fin_cases j <;> simp [Apart] at h ⊢

/-- **C102, a data race.**  Without that condition the claim fails: two threads executing `v += u` on the same `v` can end with `v + u`, a lost update. -/
theorem C102_race :
    ∃ (prog : Fin 2 → ThreadProg) (s : List (Fin 2 × Op)) (m : Mem),
      (∀ i, prog i = [(.addV (.var 0) (.var 1), fun _ n => List.range n)]) ∧
      IsSchedule (fun i => (exLayout.withTmp ((![0, 40] : Fin 2 → ℕ) i)).opsAll .double (prog i)) s ∧
      (values exLayout (runOps (s.map Prod.snd) m)).vec 0 = (values exLayout m).vec 0 + (values exLayout m).vec 1 ∧
      (values exLayout (runOps (s.map Prod.snd) m)).vec 0
        ≠ ((values exLayout m).runAll .double (inSequence fun i => (prog i).map Prod.fst)).vec 0 := by
  refine ⟨fun _ => [(.addV (.var 0) (.var 1), fun _ n => List.range n)],
    (List.range 3).flatMap fun i =>
      [(0, ⟨0, fun m => m (92 + i)⟩), (0, ⟨1, fun m => m (132 + i)⟩), (1, ⟨40, fun m => m (92 + i)⟩), (1, ⟨41, fun m => m (132 + i)⟩),
        (0, ⟨92 + i, fun m => m 0 + m 1⟩), (1, ⟨92 + i, fun m => m 40 + m 41⟩)],
    fun x => x, fun i => rfl, ?_, ?_, ?_⟩
  · intro i
    have e : List.range 3 = [0, 1, 2] := rfl
    fin_cases i
    · simp [e, Layout.opsAll, Layout.ops, binOps, Layout.withTmp, exLayout, Layout.vaddr]
    · simp [e, Layout.opsAll, Layout.ops, binOps, Layout.withTmp, exLayout, Layout.vaddr]
  · have e : List.range 3 = [0, 1, 2] := rfl
    apply V3.ext <;> simp [e, runOps, Op.run, values, exLayout, loadV, Function.update_apply] <;> norm_num
  · have e : List.range 3 = [0, 1, 2] := rfl
    intro h
    have := congrArg V3.x h
    simp [e, runOps, Op.run, values, exLayout, loadV, Function.update_apply, inSequence, List.finRange, Values.runAll, Values.run, Values.setV,
      Values.getV] at this
    norm_num at this

/-- **C102, a concrete program.**  The condition holds for threads working on the force and on the torque of the same wrench with a shared argument, and every
schedule gives the expected wrench. -/
theorem C102_example :
    let prog : Fin 2 → ThreadProg := ![[(.addV (.force 0) (.var 1), fun _ n => List.range n)],
      [(.subV (.torque 0) (.var 1), fun _ n => (List.range n).reverse), (.productP 1 1 1, fun _ n => List.range n)]]
    SeparateThreads exLayout (![0, 40] : Fin 2 → ℕ) ∧ (∀ i, ∀ c ∈ prog i, ∀ j n, IsOrder n (c.2 j n)) ∧
    RaceFree exLayout (fun i => (prog i).map Prod.fst) ∧
    ∀ s, IsSchedule (fun i => (exLayout.withTmp ((![0, 40] : Fin 2 → ℕ) i)).opsAll .double (prog i)) s →
      ((values exLayout (runOps (s.map Prod.snd) fun x => x)).wrench 0)
        = ⟨⟨![95 + 132, 96 + 133, 97 + 134]⟩, ⟨![98 - 132, 99 - 133, 100 - 134]⟩⟩ := by
  intro prog
  have ho : ∀ i, ∀ c ∈ prog i, ∀ j n, IsOrder n (c.2 j n) := by
    intro i c hc j n
    fin_cases i
    · simp [prog] at hc; subst hc; exact List.Perm.refl _
    · simp [prog] at hc
      rcases hc with rfl | rfl
      · exact List.reverse_perm _
      · exact List.Perm.refl _
  have hR : RaceFree exLayout (fun i => (prog i).map Prod.fst) := by
    intro i j hij c hc c' hc' x hx ht
    fin_cases i <;> fin_cases j <;> simp [prog] at hij hc hc'
    · subst hc
      rcases hc' with rfl | rfl
      · simp [written, argCells, Touches, InCells, Layout.vaddr, exLayout] at hx ht; omega
      · simp [written, argCells, Touches, InCells, Layout.vaddr, exLayout, repSize] at hx ht; omega
    · subst hc'
      rcases hc with rfl | rfl
      · simp [written, argCells, Touches, InCells, Layout.vaddr, exLayout] at hx ht; omega
      · simp [written, argCells, Touches, InCells, Layout.vaddr, exLayout, repSize] at hx ht; omega
  refine ⟨exThreads_separate, ho, hR, fun s hs => ?_⟩
  rw [C102_threads exLayout _ exThreads_separate .double prog ho hR s hs]
  apply Wrench.ext <;> apply Vec.ext <;> funext l
  · fin_cases l <;> simp [inSequence, List.finRange, prog, Values.runAll, Values.run, Values.setV, Values.setP, Values.getV, values, loadW,
      loadV, asV3, asVec, Wrench.setForce, Wrench.setTorque, exLayout] <;> norm_num
  · fin_cases l <;> simp [inSequence, List.finRange, prog, Values.runAll, Values.run, Values.setV, Values.setP, Values.getV, values, loadW,
      loadV, asV3, asVec, Wrench.setForce, Wrench.setTorque, exLayout] <;> norm_num

end Kindr.Spec
