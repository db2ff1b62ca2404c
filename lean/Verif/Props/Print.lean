import Verif.Spec.Print
import Verif.Props.Cast

/-!
# C100: the printed text
-/

set_option autoImplicit false

open Classical

noncomputable section
namespace Kindr
open Spec

/-! ## Words -/

lemma words_append_sep {c : Char} (hc : isSeparator c = true) (a b : Text) : words (a ++ c :: b) = words a ++ words b := by
  rw [words, List.splitOnP_append_cons _ _ hc, List.filter_append]; rfl

lemma words_nil : words [] = [] := rfl

lemma words_sep {c : Char} (hc : isSeparator c = true) (b : Text) : words (c :: b) = words b := by
  have := words_append_sep hc [] b
  rwa [words_nil, List.nil_append, List.nil_append] at this

lemma words_word {w : Text} (h : w ≠ [] ∧ ∀ c ∈ w, isSeparator c = false) : words w = [w] := by
  rw [words, List.splitOnP_eq_singleton h.2]
  simp [h.1]

lemma words_spaces (n : ℕ) (t : Text) : words (List.replicate n ' ' ++ t) = words t := by
  induction n with
  | zero => rfl
  | succ n ih => rw [List.replicate_succ, List.cons_append, words_sep rfl, ih]

lemma words_pad {fmt : ℝ → Text} (hf : NumberFormat fmt) (w : ℕ) (x : ℝ) : words (padLeft w (fmt x)) = [fmt x] := by
  rw [padLeft, words_spaces, words_word (hf x)]

lemma words_join {sep : Char} (hs : isSeparator sep = true) (ts : List Text) : words (joinWith sep ts) = (ts.map words).flatten := by
  induction ts with
  | nil => rfl
  | cons t ts ih =>
    cases ts with
    | nil => simp [joinWith]
    | cons t' ts => rw [joinWith, words_append_sep hs, ih]; rfl

lemma words_row {fmt : ℝ → Text} (hf : NumberFormat fmt) (w : ℕ) (row : List ℝ) :
    words (joinWith ' ' (row.map fun x => padLeft w (fmt x))) = row.map fmt := by
  rw [words_join rfl, List.map_map]
  induction row with
  | nil => rfl
  | cons x row ih => rw [List.map_cons, List.flatten_cons, ih]; simp [words_pad hf]

lemma words_eigen {fmt : ℝ → Text} (hf : NumberFormat fmt) (rows : List (List ℝ)) : words (eigenPrint fmt rows) = rows.flatten.map fmt := by
  rw [eigenPrint, words_join rfl, List.map_map]
  generalize ((rows.flatten).map fun x => (fmt x).length).foldr max 0 = w
  induction rows with
  | nil => rfl
  | cons r rows ih => rw [List.map_cons, List.flatten_cons, ih, List.flatten_cons, List.map_append]; simp [words_row hf]

/-! ## Lines -/

lemma lines_append_nl (a b : Text) : lines (a ++ '\n' :: b) = lines a ++ lines b := by
  rw [lines, List.splitOnP_append_cons _ _ (by rfl)]; rfl

lemma lines_single {t : Text} (h : '\n' ∉ t) : lines t = [t] := by
  rw [lines, List.splitOnP_eq_singleton]
  intro c hc
  simp only [beq_eq_false_iff_ne]
  rintro rfl
  exact h hc

lemma no_nl_fmt {fmt : ℝ → Text} (hf : NumberFormat fmt) (x : ℝ) : '\n' ∉ fmt x := fun h => by
  have := (hf x).2 _ h
  simp [isSeparator] at this

lemma no_nl_pad {fmt : ℝ → Text} (hf : NumberFormat fmt) (w : ℕ) (x : ℝ) : '\n' ∉ padLeft w (fmt x) := by
  rw [padLeft, List.mem_append, not_or]
  exact ⟨fun h => by simp at h, no_nl_fmt hf x⟩

lemma no_nl_join {ts : List Text} (h : ∀ t ∈ ts, '\n' ∉ t) : '\n' ∉ joinWith ' ' ts := by
  induction ts with
  | nil => simp [joinWith]
  | cons t ts ih =>
    cases ts with
    | nil => simpa [joinWith] using h t (by simp)
    | cons t' ts =>
      rw [joinWith, List.mem_append, List.mem_cons]
      rintro (h1 | h1 | h1)
      · exact h t (by simp) h1
      · exact absurd h1 (by decide)
      · exact ih (fun x hx => h x (by simp [hx])) h1

lemma lines_join {ts : List Text} (h : ∀ t ∈ ts, '\n' ∉ t) (hne : ts ≠ []) : lines (joinWith '\n' ts) = ts := by
  induction ts with
  | nil => exact absurd rfl hne
  | cons t ts ih =>
    cases ts with
    | nil => rw [joinWith, lines_single (h t (by simp))]
    | cons t' ts =>
      rw [joinWith, lines_append_nl, lines_single (h t (by simp)), ih (fun x hx => h x (by simp [hx])) (by simp)]; rfl

/-- Eigen's text has one line per row, and the words of the line are the entries of the row. -/
lemma lines_eigen {fmt : ℝ → Text} (hf : NumberFormat fmt) {rows : List (List ℝ)} (hne : rows ≠ []) :
    (lines (eigenPrint fmt rows)).map words = rows.map (List.map fmt) := by
  rw [eigenPrint, lines_join]
  · rw [List.map_map]
    apply List.map_congr_left
    intro r _
    exact words_row hf _ r
  · intro t ht
    obtain ⟨r, -, rfl⟩ := List.mem_map.mp ht
    refine no_nl_join fun t ht => ?_
    obtain ⟨x, -, rfl⟩ := List.mem_map.mp ht
    exact no_nl_pad hf _ x
  · simpa using hne

lemma words_quat {fmt : ℝ → Text} (hf : NumberFormat fmt) (q : Quat) : words (q.print fmt) = [q.w, q.x, q.y, q.z].map fmt := by
  rw [Quat.print, List.append_assoc, List.append_assoc, List.append_assoc, List.append_assoc, List.append_assoc]
  simp only [List.cons_append, List.nil_append]
  rw [words_append_sep rfl, words_append_sep rfl, words_append_sep rfl]
  simp [words_word (hf _)]

/-- **C100, rotations.** The words of the text of a rotation are the texts of its numbers in the documented order. -/
theorem C100_rotations (fmt : ℝ → Text) (hf : NumberFormat fmt) (k : Kind) (r : Rep k) :
    words (printRotation fmt k r) = (numbers k r).map fmt := by
  cases k
  · exact words_quat hf _
  · exact words_eigen hf _
  · change words (fmt (AngAx.angle r) ++ [',', ' '] ++ _) = _
    rw [List.append_assoc, List.cons_append, List.cons_append, words_append_sep rfl, words_sep rfl, words_word (hf _), List.nil_append]
    rw [printRow, words_eigen hf]; rfl
  · exact words_eigen hf _
  · exact words_eigen hf _
  · exact words_eigen hf _

/-- **C100, lines.** A rotation matrix is printed as three lines, its rows; every other class as a single line. -/
theorem C100_lines (fmt : ℝ → Text) (hf : NumberFormat fmt) :
    (∀ m : M3, (lines (printRotation fmt .mat m)).map words =
      [[m.m00, m.m01, m.m02].map fmt, [m.m10, m.m11, m.m12].map fmt, [m.m20, m.m21, m.m22].map fmt]) ∧
    ∀ (k : Kind) (r : Rep k), k ≠ .mat → lines (printRotation fmt k r) = [printRotation fmt k r] := by
  refine ⟨fun m => lines_eigen hf (by simp [M3.rowList]), fun k r hk => lines_single ?_⟩
  have hrow : ∀ cs : List ℝ, '\n' ∉ printRow fmt cs := by
    intro cs
    rw [printRow, eigenPrint]
    exact no_nl_join (by intro t ht; obtain ⟨x, -, rfl⟩ := List.mem_map.mp ht; exact no_nl_pad hf _ x)
  cases k
  · change '\n' ∉ Quat.print fmt r
    simp [Quat.print, no_nl_fmt hf]
  · exact absurd rfl hk
  · change '\n' ∉ fmt (AngAx.angle r) ++ [',', ' '] ++ _
    simp [no_nl_fmt hf, hrow]
  · exact hrow _
  · exact hrow _
  · exact hrow _

/-- **C100, other classes.** The words of the texts of vectors, time derivatives, wrenches, twists and poses are the texts of their numbers
in the documented order; a pose is printed as the four rows of its transformation matrix. -/
theorem C100_classes (P : Prec) (fmt : ℝ → Text) (hf : NumberFormat fmt) :
    (∀ (t : PhysicalType) (n : ℕ) (v : Vec t n), words (v.print fmt) = (List.ofFn v.coeff).map fmt) ∧
    (∀ d : QuatDiff, words (d.print fmt) = [d.q.w, d.q.x, d.q.y, d.q.z].map fmt) ∧
    (∀ d : MatDiff, (lines (d.print fmt)).map words =
      [[d.m.m00, d.m.m01, d.m.m02].map fmt, [d.m.m10, d.m.m11, d.m.m12].map fmt, [d.m.m20, d.m.m21, d.m.m22].map fmt]) ∧
    (∀ d : XyzDiff, words (d.print fmt) = [d.v.x, d.v.y, d.v.z].map fmt) ∧
    (∀ d : ZyxDiff, words (d.print fmt) = [d.v.x, d.v.y, d.v.z].map fmt) ∧
    (∀ w : LocalAV, words (w.print fmt) = [w.v.x, w.v.y, w.v.z].map fmt) ∧
    (∀ w : GlobalAV, words (w.print fmt) = [w.v.x, w.v.y, w.v.z].map fmt) ∧
    (∀ w : Wrench, words (w.print fmt) = (List.ofFn w.force.coeff ++ List.ofFn w.torque.coeff).map fmt) ∧
    (∀ (D : Type) (printD : D → Text) (w : Twist D),
      words (w.print fmt printD) = [w.linear.x, w.linear.y, w.linear.z].map fmt ++ words (printD w.rotational)) ∧
    (∀ (k : Kind) (T : Pose k), (lines (T.print P fmt k)).map words =
      let R : M3 := conv P .mat k T.rotation
      [[R.m00, R.m01, R.m02, T.position.x].map fmt, [R.m10, R.m11, R.m12, T.position.y].map fmt,
        [R.m20, R.m21, R.m22, T.position.z].map fmt, [0, 0, 0, 1].map fmt]) := by
  have hv : ∀ (t : PhysicalType) (n : ℕ) (v : Vec t n), words (v.print fmt) = (List.ofFn v.coeff).map fmt := fun t n v => by
    rw [Vec.print, printRow, words_eigen hf]; simp
  refine ⟨hv, fun d => words_quat hf d.q, fun d => lines_eigen hf (by simp [M3.rowList]), fun d => words_eigen hf _,
    fun d => words_eigen hf _, fun d => words_eigen hf _, fun d => words_eigen hf _, fun w => ?_, fun D printD w => ?_,
    fun k T => lines_eigen hf (by simp)⟩
  · rw [Wrench.print, List.append_assoc, List.cons_append, words_append_sep rfl, List.nil_append, hv, hv, List.map_append]
  · rw [Twist.print, List.append_assoc, List.cons_append, words_append_sep rfl, List.nil_append, printRow, words_eigen hf]; rfl

/-! ## Reading the text back -/

lemma numbers_injective {k : Kind} {r r' : Rep k} (h : numbers k r = numbers k r') : r = r' := by
  cases k
  · obtain ⟨w, x, y, z⟩ : Quat := r
    obtain ⟨w', x', y', z'⟩ : Quat := r'
    simp only [numbers, List.cons.injEq, and_true] at h
    obtain ⟨rfl, rfl, rfl, rfl⟩ := h; rfl
  · obtain ⟨a, b, c, d, e, f, g, i, j⟩ : M3 := r
    obtain ⟨a', b', c', d', e', f', g', i', j'⟩ : M3 := r'
    simp only [numbers, List.cons.injEq, and_true] at h
    obtain ⟨rfl, rfl, rfl, rfl, rfl, rfl, rfl, rfl, rfl⟩ := h; rfl
  · obtain ⟨a, ⟨x, y, z⟩⟩ : AngAx := r
    obtain ⟨a', ⟨x', y', z'⟩⟩ : AngAx := r'
    simp only [numbers, List.cons.injEq, and_true] at h
    obtain ⟨rfl, rfl, rfl, rfl⟩ := h; rfl
  · obtain ⟨⟨x, y, z⟩⟩ : RotVec := r
    obtain ⟨⟨x', y', z'⟩⟩ : RotVec := r'
    simp only [numbers, List.cons.injEq, and_true] at h
    obtain ⟨rfl, rfl, rfl⟩ := h; rfl
  · obtain ⟨⟨x, y, z⟩⟩ : EulXyz := r
    obtain ⟨⟨x', y', z'⟩⟩ : EulXyz := r'
    simp only [numbers, EulXyz.x, EulXyz.y, EulXyz.z, List.cons.injEq, and_true] at h
    obtain ⟨rfl, rfl, rfl⟩ := h; rfl
  · obtain ⟨⟨x, y, z⟩⟩ : EulZyx := r
    obtain ⟨⟨x', y', z'⟩⟩ : EulZyx := r'
    simp only [numbers, EulZyx.x, EulZyx.y, EulZyx.z, List.cons.injEq, and_true] at h
    obtain ⟨rfl, rfl, rfl⟩ := h; rfl

lemma map_read {fmt : ℝ → Text} {read : Text → ℝ} {l : List ℝ} (h : ∀ x ∈ l, read (fmt x) = x) : (l.map fmt).map read = l := by
  rw [List.map_map]
  conv_rhs => rw [← List.map_id l]
  exact List.map_congr_left fun x hx => h x hx

/-- **C100, reading back.** If the numbers of an object are printed with enough digits (`read` recovers them from their text), the words of
the text give exactly the numbers of the object: the only rotation of that class with these numbers is the one that was printed, and two
rotations of the same class (two vectors, two wrenches) with the same text are equal. -/
theorem C100_read_back (fmt : ℝ → Text) (hf : NumberFormat fmt) (read : Text → ℝ) :
    (∀ (k : Kind) (r : Rep k), (∀ x ∈ numbers k r, read (fmt x) = x) →
      ∀ r' : Rep k, numbers k r' = (words (printRotation fmt k r)).map read ↔ r' = r) ∧
    (∀ (k : Kind) (r r' : Rep k), (∀ x ∈ numbers k r, read (fmt x) = x) → (∀ x ∈ numbers k r', read (fmt x) = x) →
      printRotation fmt k r = printRotation fmt k r' → r = r') ∧
    (∀ (t : PhysicalType) (n : ℕ) (v v' : Vec t n), (∀ i, read (fmt (v.coeff i)) = v.coeff i) →
      (∀ i, read (fmt (v'.coeff i)) = v'.coeff i) → v.print fmt = v'.print fmt → v = v') ∧
    (∀ w w' : Wrench, (∀ i, read (fmt (w.force.coeff i)) = w.force.coeff i ∧ read (fmt (w.torque.coeff i)) = w.torque.coeff i) →
      (∀ i, read (fmt (w'.force.coeff i)) = w'.force.coeff i ∧ read (fmt (w'.torque.coeff i)) = w'.torque.coeff i) →
      w.print fmt = w'.print fmt → w = w') := by
  obtain ⟨hv, -, -, -, -, -, -, hw, -⟩ := C100_classes Prec.double fmt hf
  have hc : ∀ {n : ℕ} {f : Fin n → ℝ}, (∀ i, read (fmt (f i)) = f i) → ∀ x ∈ List.ofFn f, read (fmt x) = x := by
    intro n f h x hx
    obtain ⟨i, rfl⟩ := List.mem_ofFn.mp hx
    exact h i
  have vext : ∀ {t : PhysicalType} {n : ℕ} {v v' : Vec t n}, v.coeff = v'.coeff → v = v' := by
    rintro t n ⟨v⟩ ⟨v'⟩ h; exact congrArg _ h
  refine ⟨fun k r h r' => ?_, fun k r r' h h' e => ?_, fun t n v v' h h' e => ?_, fun w w' h h' e => ?_⟩
  · rw [C100_rotations fmt hf, map_read h]
    exact ⟨numbers_injective, fun e => by rw [e]⟩
  · apply numbers_injective
    rw [← map_read h, ← map_read h', ← C100_rotations fmt hf, ← C100_rotations fmt hf, e]
  · apply vext
    apply List.ofFn_injective
    rw [← map_read (hc h), ← map_read (hc h'), ← hv, ← hv, e]
  · have e2 : List.ofFn w.force.coeff ++ List.ofFn w.torque.coeff = List.ofFn w'.force.coeff ++ List.ofFn w'.torque.coeff := by
      have k : ∀ u : Wrench, (∀ i, read (fmt (u.force.coeff i)) = u.force.coeff i ∧ read (fmt (u.torque.coeff i)) = u.torque.coeff i) →
          (words (u.print fmt)).map read = List.ofFn u.force.coeff ++ List.ofFn u.torque.coeff := fun u hu => by
        rw [hw]
        refine map_read fun x hx => ?_
        rcases List.mem_append.mp hx with hx | hx
        · exact hc (fun i => (hu i).1) x hx
        · exact hc (fun i => (hu i).2) x hx
      rw [← k w h, ← k w' h', e]
    obtain ⟨e3, e4⟩ := List.append_inj e2 (by simp)
    have e5 : w.force = w'.force := vext (List.ofFn_injective e3)
    have e6 : w.torque = w'.torque := vext (List.ofFn_injective e4)
    obtain ⟨f, t⟩ := w
    obtain ⟨f', t'⟩ := w'
    simp only at e5 e6
    rw [e5, e6]

/-! ## A limited number of digits -/

lemma near_castV3 {fl : ℝ → ℝ} {u : ℝ} (hu : 0 ≤ u) (he : ∀ x, |fl x - x| ≤ u * |x|) (v : V3) : (castV3 fl v - v).norm ≤ u * v.norm := by
  have := V3.norm_le_of_abs (v := castV3 fl v - v) (b := u • (⟨|v.x|, |v.y|, |v.z|⟩ : V3))
    (by simpa [castV3] using he v.x) (by simpa [castV3] using he v.y) (by simpa [castV3] using he v.z)
  rwa [V3.norm_smul_nonneg hu, V3.norm_abs] at this

lemma near_castQuat {fl : ℝ → ℝ} {u : ℝ} (hu : 0 ≤ u) (he : ∀ x, |fl x - x| ≤ u * |x|) {q : Quat} (hq : q.normSq = 1) :
    ‖toH (castQuat fl q) - toH q‖ ≤ u := by
  have h : ‖toH (castQuat fl q) - toH q‖ ^ 2 ≤ u ^ 2 := by
    rw [sq ‖_‖, ← Quaternion.normSq_eq_norm_mul_self, Quaternion.normSq_def']
    have s : ∀ x : ℝ, (fl x - x) ^ 2 ≤ u ^ 2 * x ^ 2 := fun x => by
      have := he x
      rw [← sq_abs (fl x - x), ← sq_abs x, ← mul_pow]
      exact pow_le_pow_left₀ (abs_nonneg _) this 2
    have e : u ^ 2 = u ^ 2 * q.w ^ 2 + u ^ 2 * q.x ^ 2 + u ^ 2 * q.y ^ 2 + u ^ 2 * q.z ^ 2 := by
      have : q.w ^ 2 + q.x ^ 2 + q.y ^ 2 + q.z ^ 2 = 1 := by rw [← hq, Quat.normSq]; ring
      rw [← mul_add, ← mul_add, ← mul_add, this, mul_one]
    rw [e]
    have := s q.w; have := s q.x; have := s q.y; have := s q.z
    change (fl q.w - q.w) ^ 2 + (fl q.x - q.x) ^ 2 + (fl q.y - q.y) ^ 2 + (fl q.z - q.z) ^ 2 ≤ _
    linarith
  exact abs_le_of_sq_le_sq' h hu |>.2

lemma near_castM3 {fl : ℝ → ℝ} {u : ℝ} (hu : 0 ≤ u) (he : ∀ x, |fl x - x| ≤ u * |x|) {m : M3} (h : IsSO3 m) :
    EntryClose u (castM3 fl m) m := by
  have c : ∀ {a : ℝ}, |a - 0| ≤ 1 → |fl a - a| ≤ u := fun {a} ha => by
    rw [sub_zero] at ha; exact (he a).trans (mul_le_of_le_one_right hu ha)
  obtain ⟨h1, h2, h3, h4, h5, h6, h7, h8, h9⟩ := so3_entry_le h
  exact ⟨c h1, c h2, c h3, c h4, c h5, c h6, c h7, c h8, c h9⟩

lemma near_castRep {fl : ℝ → ℝ} {u : ℝ} (hu : 0 ≤ u) (hu1 : u ≤ 1 / 2) (he : ∀ x, |fl x - x| ≤ u * |x|) {k : Kind} {r : Rep k}
    (h : Valid k r) : Close (castBound k r * u) (dmat k (castRep fl k r)) (dmat k r) := by
  cases k
  · intro v
    have hq := (valid_quat_iff _).mp h
    have e := near_castQuat hu he hq
    rw [← act_eq_dmat, ← act_eq_dmat]
    refine (sandwich_lipschitz _ _ v).trans (mul_le_mul_of_nonneg_right ?_ v.norm_nonneg)
    have hn : (castQuat fl r).norm ≤ 1 + u := by
      have := abs_norm_sub_norm_le (toH (castQuat fl r)) (toH r)
      rw [norm_toH, norm_toH, unit_norm hq] at this
      have := (abs_le.mp (this.trans e)).2
      linarith
    change ((castQuat fl r).norm + Quat.norm r) * ‖toH (castQuat fl r) - toH r‖ ≤ 3 * u
    have hr : Quat.norm r = 1 := unit_norm hq
    rw [hr]
    exact mul_le_mul (by linarith) e (norm_nonneg _) (by norm_num)
  · exact (near_castM3 hu he h).close
  · intro v
    have hn : (AngAx.axis r).normSq = 1 := (valid_aa_iff _).mp h
    have h1 := near_castV3 hu he (AngAx.axis r)
    have h0 := V3.norm_eq_one_iff.mpr hn
    rw [h0, mul_one] at h1
    have a := V3.norm_add_le (castV3 fl (AngAx.axis r) - AngAx.axis r) (AngAx.axis r)
    rw [sub_add_cancel, h0] at a
    have k := rodrigues_lipschitz' (θ := AngAx.angle r) (θ' := fl (AngAx.angle r)) hn (n' := castV3 fl (AngAx.axis r)) (by linarith) v
    change ((rodMat (fl (AngAx.angle r)) (castV3 fl (AngAx.axis r))).mulVec v - (rodMat (AngAx.angle r) (AngAx.axis r)).mulVec v).norm ≤ _
    rw [← rodrigues_eq, ← rodrigues_eq, V3.norm_sub_comm]
    refine k.trans (mul_le_mul_of_nonneg_right ?_ v.norm_nonneg)
    have := he (AngAx.angle r)
    change _ ≤ (3 * |AngAx.angle r| + 7) * u
    rw [V3.norm_sub_comm, abs_sub_comm]
    linarith
  · exact rv_perturb (near_castV3 hu he _) hu hu1
  · refine (xyz_perturb _ _ _ _ _ _).mono ?_
    have := he (EulXyz.x r); have := he (EulXyz.y r); have := he (EulXyz.z r)
    change |fl (EulXyz.x r) - EulXyz.x r| + |fl (EulXyz.y r) - EulXyz.y r| + |fl (EulXyz.z r) - EulXyz.z r| ≤
      (|EulXyz.x r| + |EulXyz.y r| + |EulXyz.z r|) * u
    linarith
  · refine (zyx_perturb _ _ _ _ _ _).mono ?_
    have := he (EulZyx.x r); have := he (EulZyx.y r); have := he (EulZyx.z r)
    change |fl (EulZyx.z r) - EulZyx.z r| + |fl (EulZyx.y r) - EulZyx.y r| + |fl (EulZyx.x r) - EulZyx.x r| ≤
      (|EulZyx.x r| + |EulZyx.y r| + |EulZyx.z r|) * u
    linarith

lemma numbers_cast (fl : ℝ → ℝ) (k : Kind) (r : Rep k) : numbers k (castRep fl k r) = (numbers k r).map fl := by
  cases k <;> rfl

/-- **C100, limited precision.** If the stream prints the numbers with a relative error of at most `u` (`5e-6` for the six digits of the
default precision), the rotation of the same class with the numbers read from the text turns every vector to within `castBound · u` of where
the printed rotation turns it. -/
theorem C100_precision (fmt : ℝ → Text) (hf : NumberFormat fmt) (read : Text → ℝ) {u : ℝ} (hu : 0 ≤ u) (hu1 : u ≤ 1 / 2) {k : Kind} {r : Rep k}
    (hr : Valid k r) (he : ∀ x ∈ numbers k r, |read (fmt x) - x| ≤ u * |x|) {r' : Rep k}
    (h : numbers k r' = (words (printRotation fmt k r)).map read) (v : V3) :
    (act k r' v - act k r v).norm ≤ castBound k r * u * v.norm := by
  obtain ⟨fl, hfl⟩ : ∃ fl : ℝ → ℝ, fl = fun x => if |read (fmt x) - x| ≤ u * |x| then read (fmt x) else x := ⟨_, rfl⟩
  have he' : ∀ x, |fl x - x| ≤ u * |x| := fun x => by
    rw [hfl]; simp only
    split_ifs with h
    · exact h
    · rw [sub_self, abs_zero]; positivity
  have e : r' = castRep fl k r := by
    apply numbers_injective
    rw [h, numbers_cast, C100_rotations fmt hf, List.map_map]
    refine List.map_congr_left fun x hx => ?_
    rw [hfl]; simp only [Function.comp_apply, if_pos (he x hx)]
  rw [e, act_eq_dmat, act_eq_dmat]
  exact near_castRep hu hu1 he' hr v

/-- **C100, six digits.** With the default precision the components of a unit quaternion or a unit axis are off by at most half a millionth;
the quaternion and the angle-axis rotation made from the printed numbers pass the debug check of the constructor, but a printed rotation
matrix need not: the rotation by `atan2(56, 33)` about the z axis, printed with six digits, is refused. -/
theorem C100_six_digits :
    (∀ q q' : Quat, Valid .quat q → |q'.w - q.w| ≤ 5e-7 → |q'.x - q.x| ≤ 5e-7 → |q'.y - q.y| ≤ 5e-7 → |q'.z - q.z| ≤ 5e-7 →
      quatCtorDbg q' = .ok q') ∧
    (∀ a a' : AngAx, Valid .aa a → |a'.axis.x - a.axis.x| ≤ 5e-7 → |a'.axis.y - a.axis.y| ≤ 5e-7 → |a'.axis.z - a.axis.z| ≤ 5e-7 →
      aaCtorDbg a' = .ok a') ∧
    (∃ m m' : M3, Valid .mat m ∧ EntryClose 5e-7 m' m ∧ (∀ x ∈ numbers .mat m', ∃ n : ℤ, x = n / 10 ^ 6) ∧ matCtorDbg m' = .throws) := by
  refine ⟨fun q q' h h0 h1 h2 h3 => ?_, fun a a' h h1 h2 h3 => ?_, ?_⟩
  · have hq := (valid_quat_iff _).mp h
    have hd : ‖toH q' - toH q‖ ≤ 1e-6 := by
      have k : ‖toH q' - toH q‖ ^ 2 ≤ (1e-6) ^ 2 := by
        rw [sq ‖_‖, ← Quaternion.normSq_eq_norm_mul_self, Quaternion.normSq_def']
        change (q'.w - q.w) ^ 2 + (q'.x - q.x) ^ 2 + (q'.y - q.y) ^ 2 + (q'.z - q.z) ^ 2 ≤ _
        have s : ∀ {x : ℝ}, |x| ≤ 5e-7 → x ^ 2 ≤ (5e-7) ^ 2 := fun {x} hx => by
          rw [← sq_abs x]; exact pow_le_pow_left₀ (abs_nonneg _) hx 2
        have := s h0; have := s h1; have := s h2; have := s h3
        norm_num at *
        linarith
      exact (abs_le_of_sq_le_sq' k (by norm_num)).2
    rw [(C26_quaternion_ctor _).1]
    have := abs_norm_sub_norm_le (toH q') (toH q)
    rw [norm_toH, norm_toH, unit_norm hq] at this
    refine (this.trans hd).trans ?_
    obtain ⟨x, hx⟩ : ∃ x, x = max q'.norm 1 := ⟨_, rfl⟩
    have hx1 : 1 ≤ x := hx ▸ le_max_right q'.norm 1
    rw [← hx]
    norm_num
    linarith
  · have hn := V3.norm_eq_one_iff.mpr ((valid_aa_iff _).mp h)
    have hd : (a'.axis - a.axis).norm ≤ 1e-6 := by
      apply le_of_sq_le_sq _ (by norm_num)
      rw [V3.norm_sq]
      change (a'.axis.x - a.axis.x) * (a'.axis.x - a.axis.x) + (a'.axis.y - a.axis.y) * (a'.axis.y - a.axis.y) +
        (a'.axis.z - a.axis.z) * (a'.axis.z - a.axis.z) ≤ _
      have s : ∀ {x : ℝ}, |x| ≤ 5e-7 → x * x ≤ (5e-7) ^ 2 := fun {x} hx => by
        rw [← abs_mul_abs_self x, ← sq]; exact pow_le_pow_left₀ (abs_nonneg _) hx 2
      have := s h1; have := s h2; have := s h3
      norm_num at *
      linarith
    rw [(C26_angle_axis_ctor _).1]
    have t1 := V3.norm_add_le (a'.axis - a.axis) a.axis
    have t2 := V3.norm_add_le (a.axis - a'.axis) a'.axis
    rw [sub_add_cancel, hn] at t1 t2
    rw [V3.norm_sub_comm] at t2
    obtain ⟨x, hx⟩ : ∃ x, x = max a'.axis.norm 1 := ⟨_, rfl⟩
    have hx1 : 1 ≤ x := hx ▸ le_max_right a'.axis.norm 1
    rw [← hx, abs_le]
    norm_num at hd
    constructor <;> linarith
  · refine ⟨⟨33 / 65, -(56 / 65), 0, 56 / 65, 33 / 65, 0, 0, 0, 1⟩,
      ⟨507692 / 10 ^ 6, -861538 / 10 ^ 6, 0, 861538 / 10 ^ 6, 507692 / 10 ^ 6, 0, 0, 0, 1⟩, ?_, ?_, ?_, ?_⟩
    · refine ⟨?_, ?_⟩
      · ext <;> simp [M3.transpose] <;> norm_num
      · simp [M3.det]; norm_num
    · refine ⟨?_, ?_, ?_, ?_, ?_, ?_, ?_, ?_, ?_⟩ <;> norm_num
      all_goals rw [abs_le]; constructor <;> norm_num
    · intro x hx
      simp only [numbers, List.mem_cons, List.not_mem_nil, or_false] at hx
      rcases hx with rfl | rfl | rfl | rfl | rfl | rfl | rfl | rfl | rfl
      exacts [⟨507692, by norm_num⟩, ⟨-861538, by norm_num⟩, ⟨0, by norm_num⟩, ⟨861538, by norm_num⟩, ⟨507692, by norm_num⟩,
        ⟨0, by norm_num⟩, ⟨0, by norm_num⟩, ⟨0, by norm_num⟩, ⟨1000000, by norm_num⟩]
    · rw [← (C26_matrix_ctor _).2.1]
      intro h
      have := ((matCtorDbg_iff _).mp h).1.1
      simp [M3.transpose] at this
      norm_num at this

/-- **C100, the class is not in the text.** A rotation vector and the two kinds of Euler angles with the same three components print the same
text although they are different rotations; the vectors of different physical quantities print the same text too. -/
theorem C100_class_lost (fmt : ℝ → Text) :
    (∀ v : V3, printRotation fmt .rv (⟨v⟩ : RotVec) = printRotation fmt .xyz (⟨v⟩ : EulXyz) ∧
      printRotation fmt .rv (⟨v⟩ : RotVec) = printRotation fmt .zyx (⟨v⟩ : EulZyx)) ∧
    (∃ v : V3, ¬ SameRot (k₁ := .rv) (k₂ := .xyz) (⟨v⟩ : RotVec) (⟨v⟩ : EulXyz) ∧
      ¬ SameRot (k₁ := .rv) (k₂ := .zyx) (⟨v⟩ : RotVec) (⟨v⟩ : EulZyx) ∧ ¬ SameRot (k₁ := .xyz) (k₂ := .zyx) (⟨v⟩ : EulXyz) (⟨v⟩ : EulZyx)) ∧
    (∀ (t t' : PhysicalType) (n : ℕ) (f : Fin n → ℝ), Vec.print fmt (⟨f⟩ : Vec t n) = Vec.print fmt (⟨f⟩ : Vec t' n)) := by
  obtain ⟨p, hp⟩ : ∃ p, p = Real.pi / 2 := ⟨_, rfl⟩
  have hp0 : p ≠ 0 := by rw [hp]; positivity
  have hs : Real.sin p = 1 := by rw [hp]; exact Real.sin_pi_div_two
  have hc : Real.cos p = 0 := by rw [hp]; exact Real.cos_pi_div_two
  have hv : (⟨p, p, 0⟩ : V3) ≠ 0 := fun h => hp0 (congrArg V3.x h)
  have e1 : act .rv (⟨⟨p, p, 0⟩⟩ : RotVec) ⟨p, p, 0⟩ = ⟨p, p, 0⟩ := by
    have hd := unit_dir (V3.norm_pos hv).ne'
    rw [act_eq_dmat, dmat_rv_ne hv, ← rodrigues_eq]
    obtain ⟨t, ht⟩ : ∃ t, t = (⟨p, p, 0⟩ : V3).norm := ⟨_, rfl⟩
    rw [← ht] at hd ⊢
    have ht0 : t ≠ 0 := ht ▸ (V3.norm_pos hv).ne'
    have ht2 : t ^ 2 = p ^ 2 + p ^ 2 := by rw [ht, V3.norm_sq]; simp [V3.normSq, V3.dot]; ring
    ext
    · simp [rodrigues, V3.cross, V3.dot]; field_simp; rw [ht2]; ring
    · simp [rodrigues, V3.cross, V3.dot]; field_simp; rw [ht2]; ring
    · simp [rodrigues, V3.cross, V3.dot]
  have e2 : act .xyz (⟨⟨p, p, 0⟩⟩ : EulXyz) ⟨p, p, 0⟩ = ⟨0, p, p⟩ := by
    rw [act_eq_dmat]
    ext <;> simp [dmat, rX, rY, rZ, EulXyz.x, EulXyz.y, EulXyz.z, hs, hc]
  have e3 : act .zyx (⟨⟨p, p, 0⟩⟩ : EulZyx) ⟨p, p, 0⟩ = ⟨-p, 0, -p⟩ := by
    rw [act_eq_dmat]
    ext <;> simp [dmat, rX, rY, rZ, EulZyx.x, EulZyx.y, EulZyx.z, hs, hc]
  refine ⟨fun v => ⟨rfl, rfl⟩, ⟨⟨p, p, 0⟩, fun h => ?_, fun h => ?_, fun h => ?_⟩, fun t t' n f => rfl⟩
  · have := (e1.symm.trans (h _)).trans e2
    exact hp0 (congrArg V3.x this)
  · have := (e1.symm.trans (h _)).trans e3
    exact hp0 (congrArg V3.y this)
  · have := (e2.symm.trans (h _)).trans e3
    exact hp0 (congrArg V3.y this)

/-- **C100, source positions.** The text of a source position names the file, the line and the function: when neither the file name nor the
line contains a colon, two positions with the same text are the same position. -/
theorem C100_source_pos (s s' : SourceFilePos) (h1 : ':' ∉ s.file) (h1' : ':' ∉ s'.file) (h2 : ':' ∉ s.line) (h2' : ':' ∉ s'.line)
    (h : s.toText = s'.toText) : s = s' := by
  have key : ∀ {a b x y : Text}, ':' ∉ a → ':' ∉ b → a ++ ':' :: x = b ++ ':' :: y → a = b ∧ x = y := by
    intro a
    induction a with
    | nil =>
      intro b x y _ hb e
      cases b with
      | nil => exact ⟨rfl, by simpa using e⟩
      | cons c b => simp at e; exact absurd (List.mem_cons.mpr (Or.inl e.1)) hb
    | cons c a ih =>
      intro b x y ha hb e
      cases b with
      | nil => simp at e; exact absurd (List.mem_cons.mpr (Or.inl e.1.symm)) ha
      | cons d b =>
        simp only [List.cons_append, List.cons.injEq] at e
        obtain ⟨e1, e2⟩ := ih (fun h => ha (List.mem_cons_of_mem _ h)) (fun h => hb (List.mem_cons_of_mem _ h)) e.2
        exact ⟨by rw [e.1, e1], e2⟩
  simp only [SourceFilePos.toText, List.append_assoc, List.cons_append, List.nil_append] at h
  obtain ⟨e1, e2⟩ := key h1 h1' h
  obtain ⟨e3, e4⟩ := key h2 h2' e2
  obtain ⟨f, g, l⟩ := s
  obtain ⟨f', g', l'⟩ := s'
  simp only at e1 e3 e4
  subst e1 e3
  simp only [List.cons.injEq, true_and] at e4
  rw [List.append_cancel_right e4]

/-- A concrete number format: a sign and a digit string of as many ones as the number (rounded down). -/
def tally (x : ℝ) : Text := '+' :: List.replicate ⌊x⌋₊ '1'

/-- **C100, example.** There is a number format that recovers the natural numbers; columns are aligned to the longest entry. -/
theorem C100_example :
    NumberFormat tally ∧ (∀ n : ℕ, (((tally n).length - 1 : ℕ) : ℝ) = n) ∧
    printRotation tally .quat (⟨1, 2, 3, 0⟩ : Quat) = "+1 +11 +111 +".toList ∧
    printRotation tally .zyx (⟨⟨1, 2, 3⟩⟩ : EulZyx) = "  +1  +11 +111".toList ∧
    printRotation tally .aa (⟨2, ⟨1, 0, 0⟩⟩ : AngAx) = "+11, +1  +  +".toList ∧
    printRotation tally .mat (1 : M3) = "+1  +  +\n + +1  +\n +  + +1".toList := by
  have t0 : tally 0 = ['+'] := by simp [tally]
  have t1 : tally 1 = ['+', '1'] := by simp [tally]
  have t2 : tally 2 = ['+', '1', '1'] := by simp [tally, List.replicate]
  have t3 : tally 3 = ['+', '1', '1', '1'] := by simp [tally, List.replicate]
  refine ⟨fun x => ⟨by simp [tally], fun c hc => ?_⟩, fun n => by simp [tally], ?_, ?_, ?_, ?_⟩
  · simp only [tally, List.mem_cons, List.mem_replicate] at hc
    rcases hc with rfl | ⟨-, rfl⟩ <;> rfl
  · simp [printRotation, Quat.print, t0, t1, t2, t3]
  · simp [printRotation, printRow, eigenPrint, padLeft, joinWith, t0, t1, t2, t3]
  · simp [printRotation, printRow, eigenPrint, padLeft, joinWith, t0, t1, t2, t3]
  · simp [printRotation, M3.rowList, eigenPrint, padLeft, joinWith, t0, t1, t2, t3]

end Kindr
