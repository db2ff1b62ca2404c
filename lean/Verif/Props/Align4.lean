import Verif.Props.Align3
import Verif.Model.Align

set_option autoImplicit false

open Classical

noncomputable section
namespace Kindr
open Spec
namespace Format
variable {f : Format}

/-- The length of a quaternion of moderate length. -/
lemma quatNorm_err (hf : f.Ok) (hp : 24 ≤ f.p) {q : Quat} {n : ℝ} (n0 : 0 ≤ n) (hn : n ^ 2 = q.w ^ 2 + q.x ^ 2 + q.y ^ 2 + q.z ^ 2) (n1 : 1 / 2 ≤ n)
    (n2 : n ≤ 3 / 2) : ∃ N, f.arith.quatNorm (embQ q) = .fin N ∧ |N - n| ≤ 20 * f.uu := by
  have h := rd hf hp
  have u0 := h.pos
  have u1 : f.uu ≤ 1 / 10 ^ 7 := by have := h.le; norm_num at this ⊢; linarith
  have M : ∀ {x y : ℝ}, |x * y| ≤ 5 → f.arith.mul (.fin x) (.fin y) = .fin (f.round (x * y)) := fun hx => rnd_small hf hx
  have AD : ∀ {x y : ℝ}, |x + y| ≤ 5 → f.arith.add (.fin x) (.fin y) = .fin (f.round (x + y)) := fun hx => rnd_small hf hx
  have hn2 : n ^ 2 ≤ 9 / 4 := by nlinarith
  have a0 := mul_self_nonneg q.w; have b0 := mul_self_nonneg q.x; have c0 := mul_self_nonneg q.y; have d0 := mul_self_nonneg q.z
  simp only [sq] at hn hn2
  obtain ⟨a, ha⟩ : ∃ a, a = q.w * q.w := ⟨_, rfl⟩
  obtain ⟨b, hb⟩ : ∃ a, a = q.x * q.x := ⟨_, rfl⟩
  obtain ⟨c, hc⟩ : ∃ a, a = q.y * q.y := ⟨_, rfl⟩
  obtain ⟨d, hd⟩ : ∃ a, a = q.z * q.z := ⟨_, rfl⟩
  have Ma := @M q.w q.w; have Mb := @M q.x q.x; have Mc := @M q.y q.y; have Md := @M q.z q.z
  rw [← ha] at a0 Ma hn; rw [← hb] at b0 Mb hn; rw [← hc] at c0 Mc hn; rw [← hd] at d0 Md hn
  have ea := h.abs (show |a| ≤ 9 / 4 by rw [abs_of_nonneg a0]; linarith)
  have eb := h.abs (show |b| ≤ 9 / 4 by rw [abs_of_nonneg b0]; linarith)
  have ec := h.abs (show |c| ≤ 9 / 4 by rw [abs_of_nonneg c0]; linarith)
  have ed := h.abs (show |d| ≤ 9 / 4 by rw [abs_of_nonneg d0]; linarith)
  have Ma := Ma (by rw [abs_of_nonneg a0]; linarith)
  have Mb := Mb (by rw [abs_of_nonneg b0]; linarith)
  have Mc := Mc (by rw [abs_of_nonneg c0]; linarith)
  have Md := Md (by rw [abs_of_nonneg d0]; linarith)
  generalize f.round a = a' at *
  generalize f.round b = b' at *
  generalize f.round c = c' at *
  generalize f.round d = d' at *
  obtain ⟨ea1, ea2⟩ := abs_le.mp ea
  obtain ⟨eb1, eb2⟩ := abs_le.mp eb
  obtain ⟨ec1, ec2⟩ := abs_le.mp ec
  obtain ⟨ed1, ed2⟩ := abs_le.mp ed
  have g1 : |a' + b'| ≤ 23 / 10 := by rw [abs_le]; constructor <;> linarith
  have e1 := h.abs g1
  have A1 := AD (show |a' + b'| ≤ 5 by linarith)
  generalize f.round (a' + b') = s1 at *
  obtain ⟨e11, e12⟩ := abs_le.mp e1
  have g2 : |s1 + c'| ≤ 23 / 10 := by rw [abs_le]; constructor <;> linarith
  have e2 := h.abs g2
  have A2 := AD (show |s1 + c'| ≤ 5 by linarith)
  generalize f.round (s1 + c') = s2 at *
  obtain ⟨e21, e22⟩ := abs_le.mp e2
  have g3 : |s2 + d'| ≤ 23 / 10 := by rw [abs_le]; constructor <;> linarith
  have e3 := h.abs g3
  have A3 := AD (show |s2 + d'| ≤ 5 by linarith)
  generalize f.round (s2 + d') = Z at *
  obtain ⟨e31, e32⟩ := abs_le.mp e3
  have z1 : n * n - 16 * f.uu ≤ Z := by linarith
  have z2 : Z ≤ n * n + 16 * f.uu := by linarith
  have nn : 1 / 4 ≤ n * n := by nlinarith
  have Z0 : 0 < Z := by linarith
  have q0 := Real.sqrt_nonneg Z
  have q2 := Real.mul_self_sqrt Z0.le
  obtain ⟨r, hr⟩ : ∃ r, r = Real.sqrt Z := ⟨_, rfl⟩
  rw [← hr] at q0 q2
  have k : |r - n| * (r + n) ≤ 16 * f.uu := by
    rw [← abs_of_nonneg (show 0 ≤ r + n by linarith), ← abs_mul, show (r - n) * (r + n) = Z - n * n by rw [← q2]; ring, abs_le]
    constructor <;> linarith
  have r1 : 49 / 100 ≤ r := by
    refine le_trans (le_abs_self _) (abs_le_of_sq_le_sq ?_ q0)
    rw [sq r, q2]; norm_num; linarith
  have k2 : |r - n| ≤ 17 * f.uu := by
    have := mul_le_mul_of_nonneg_left (show 99 / 100 ≤ r + n by linarith) (abs_nonneg (r - n))
    linarith
  obtain ⟨k3, k4⟩ := abs_le.mp k2
  have g4 : |r| ≤ 16 / 10 := by rw [abs_of_nonneg q0]; linarith
  have e4 := h.abs g4
  refine ⟨f.round r, ?_, ?_⟩
  · simp only [XArith.quatNorm, embQ]
    rw [Ma, Mb, Mc, Md, A1, A2, A3]
    simp only [XArith.sqrt, if_neg (not_lt.mpr Z0.le), ← hr]
    exact rnd_small hf (by linarith)
  · have := abs_sub_le (f.round r) r n
    linarith

/-- The debug check of the length, for lengths between one half and two. -/
lemma dbg_check (hf : f.Ok) (hp : 24 ≤ f.p) {q : XQuat} {N : ℝ} (hN : f.arith.quatNorm q = .fin N) (n1 : 1 / 4 ≤ N) (n2 : N ≤ 2) :
    (|N - 1| ≤ 99 / 10 ^ 6 → f.arith.quatCtorDbg q = .ok q) ∧ (111 / 10 ^ 6 ≤ N - 1 → f.arith.quatCtorDbg q = .throws) := by
  have h := rd hf hp
  have u0 := h.pos
  have u1 : f.uu ≤ 1 / 10 ^ 7 := by have := h.le; norm_num at this ⊢; linarith
  have g1 : |N + -1| ≤ 1 := by rw [abs_le]; constructor <;> linarith
  have e1 := h.err (N + -1)
  have A1 : f.arith.sub (.fin N) (.fin 1) = .fin (f.round (N + -1)) := rnd_small hf (by linarith)
  have et := h.err ((1 : ℝ) / 100 * (1 / 100))
  have At : f.arith.mul (.fin (1 / 100)) (.fin (1 / 100)) = .fin (f.round (1 / 100 * (1 / 100))) := rnd_small hf (by norm_num)
  obtain ⟨D, hD⟩ : ∃ D, D = f.round (N + -1) := ⟨_, rfl⟩
  obtain ⟨t, ht⟩ : ∃ t, t = f.round (1 / 100 * (1 / 100)) := ⟨_, rfl⟩
  rw [← hD] at e1 A1; rw [← ht] at et At
  have m : ((XR.fin N).abs).max ((XR.fin 1).abs) = .fin (max N 1) := by
    have e : ((XR.fin N).abs) = .fin N := by change XR.fin |N| = _; rw [abs_of_nonneg (by linarith)]
    have e' : ((XR.fin 1).abs) = .fin 1 := by change XR.fin |1| = _; rw [abs_one]
    rw [e, e']
    unfold XR.max
    by_cases hh : (XR.fin N).lt (.fin 1)
    · rw [if_pos hh, max_eq_right (le_of_lt hh)]
    · rw [if_neg hh, max_eq_left (not_lt.mp hh)]
  have mp : 1 ≤ max N 1 := le_max_right _ _
  have uu1 : f.uu * |N + -1| ≤ f.uu * 1 := mul_le_mul_of_nonneg_left g1 u0.le
  have Db : |(|D|)| ≤ 11 / 10 := by
    rw [abs_abs]
    have := abs_sub_abs_le_abs_sub D (N + -1); linarith
  have Dd : |(|D| / max N 1)| ≤ 11 / 10 := by
    rw [abs_div, abs_of_pos (show 0 < max N 1 by linarith), div_le_iff₀ (by linarith)]; nlinarith
  have Ad : f.arith.div (.fin |D|) (.fin (max N 1)) = .fin (f.round (|D| / max N 1)) := by
    simp only [XArith.div, if_neg (show max N 1 ≠ 0 by linarith)]
    exact rnd_small hf (by linarith)
  have ed := h.abs Dd
  obtain ⟨E, hE⟩ : ∃ E, E = f.round (|D| / max N 1) := ⟨_, rfl⟩
  rw [← hE] at Ad ed
  rw [abs_of_pos (by norm_num : (0 : ℝ) < 1 / 100 * (1 / 100))] at et
  obtain ⟨et1, et2⟩ := abs_le.mp et
  obtain ⟨ed1, ed2⟩ := abs_le.mp ed
  have key : f.arith.quatCtorDbg q = if t < E then .throws else .ok q := by
    unfold XArith.quatCtorDbg XArith.assertScalarNearDbg XArith.compareRelative
    rw [hN]
    have no : ¬ (((XR.fin N).abs.lt (.fin (1 / 10 ^ 15)) ∧ (XR.fin 1).abs.lt (.fin (1 / 10 ^ 15))) ∨
        ((XR.fin N).abs.eq (.fin 0) ∧ (XR.fin 1).abs.lt (.fin (1 / 10 ^ 6))) ∨ ((XR.fin 1).abs.eq (.fin 0) ∧ (XR.fin N).abs.lt (.fin (1 / 10 ^ 6)))) := by
      simp only [XR.abs, XR.lt, XR.eq, abs_one]
      rintro (h | h | h)
      · have := h.2; norm_num at this
      · have := h.2; norm_num at this
      · have := h.1; norm_num at this
    simp only [if_neg no, A1, m, At]
    have : (XR.fin D).abs = .fin |D| := rfl
    rw [this, Ad]
    by_cases hh : t < E
    · rw [if_pos hh, if_pos (show (XR.fin t).lt (.fin E) from hh)]; simp
    · rw [if_neg hh, if_neg (show ¬ (XR.fin t).lt (.fin E) from hh)]; simp
  rw [key]
  constructor
  · intro hh
    have Dm : |D| / max N 1 ≤ |D| := div_le_self (abs_nonneg _) mp
    have := abs_sub_abs_le_abs_sub D (N + -1)
    have hh' : |N + -1| ≤ 99 / 10 ^ 6 := hh
    rw [if_neg (by linarith)]
  · intro hh
    have hh2 : |N + -1| = N - 1 := by rw [abs_of_nonneg (by linarith)]; ring
    have := abs_sub_abs_le_abs_sub (N + -1) D
    rw [abs_sub_comm] at this
    have mN : max N 1 = N := max_eq_left (by linarith)
    have Dm : 1105 / 10 ^ 7 ≤ |D| / max N 1 := by
      rw [mN, le_div_iff₀ (by linarith)]
      linarith
    rw [if_pos (by linarith)]

end Format
end Kindr
