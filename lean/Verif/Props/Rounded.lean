import Verif.Props.Defined
import Verif.Props.Binary
import Verif.Spec.Rounded

/-!
# C96: without overflow, programs over rotations never produce NaN, whatever the rounding
-/

set_option autoImplicit false
set_option linter.unusedSectionVars false

open Classical

noncomputable section
namespace Kindr
open Spec

namespace Rd
variable {A : XArith} {f : ℝ → ℝ} (H : RoundsTo A f)
include H

lemma zero : f 0 = 0 := H.zero
lemma nonneg {x : ℝ} (h : 0 ≤ x) : 0 ≤ f x := by rw [← zero H]; exact H.mono h
lemma ge_one {x : ℝ} (h : 1 ≤ x) : 1 ≤ f x := by rw [← H.one]; exact H.mono h
lemma fin_ex {x : XR} (h : x.IsFinite) : ∃ y, x = .fin y := by
  cases x
  · exact ⟨_, rfl⟩
  all_goals exact h.elim
lemma stored_fin {x : XR} (h : StoredNum f x) : x.IsFinite := by
  cases x
  · trivial
  all_goals exact h.elim
lemma st_rnd (x : ℝ) : StoredNum f (A.rnd x) := by rw [H.rnd]; exact H.idem x
lemma st_zero : StoredNum f (.fin 0) := zero H
lemma st_one : StoredNum f (.fin 1) := H.one
lemma st_neg {x : XR} (h : StoredNum f x) : StoredNum f x.neg := by
  cases x
  · exact H.neg _ h
  all_goals exact h.elim
lemma st_abs {x : XR} (h : StoredNum f x) : StoredNum f x.abs := by
  cases x with
  | fin y =>
    change f |y| = |y|
    have h' : f y = y := h
    rcases abs_choice y with e | e
    · rw [e, h']
    · rw [e]; exact H.neg _ h'
  | _ => exact h.elim
lemma st_add {x y : XR} (hx : x.IsFinite) (hy : y.IsFinite) : StoredNum f (A.add x y) := by
  obtain ⟨a, rfl⟩ := fin_ex H hx
  obtain ⟨b, rfl⟩ := fin_ex H hy
  exact st_rnd H _
lemma fin_neg' {x : XR} (hx : x.IsFinite) : x.neg.IsFinite := by cases x <;> simp_all [XR.neg, XR.IsFinite]
lemma fin_abs' {x : XR} (hx : x.IsFinite) : x.abs.IsFinite := by cases x <;> simp_all [XR.abs, XR.IsFinite]
lemma st_sub {x y : XR} (hx : x.IsFinite) (hy : y.IsFinite) : StoredNum f (A.sub x y) := st_add H hx (fin_neg' H hy)
lemma st_mul {x y : XR} (hx : x.IsFinite) (hy : y.IsFinite) : StoredNum f (A.mul x y) := by
  obtain ⟨a, rfl⟩ := fin_ex H hx
  obtain ⟨b, rfl⟩ := fin_ex H hy
  exact st_rnd H _
lemma st_div {x y : XR} (hx : x.IsFinite) (hy : y.IsFinite) (h : ¬ y.eq (.fin 0)) : StoredNum f (A.div x y) := by
  obtain ⟨a, rfl⟩ := fin_ex H hx
  obtain ⟨b, rfl⟩ := fin_ex H hy
  have hb : b ≠ 0 := h
  simp only [XArith.div, if_neg hb]
  exact st_rnd H _
lemma st_sin {x : XR} (hx : x.IsFinite) : StoredNum f (A.sin x) := by
  obtain ⟨a, rfl⟩ := fin_ex H hx
  exact st_rnd H _
lemma st_cos {x : XR} (hx : x.IsFinite) : StoredNum f (A.cos x) := by
  obtain ⟨a, rfl⟩ := fin_ex H hx
  exact st_rnd H _
lemma st_atan2 {x y : XR} (hx : x.IsFinite) (hy : y.IsFinite) : StoredNum f (A.atan2 x y) := by
  obtain ⟨a, rfl⟩ := fin_ex H hx
  obtain ⟨b, rfl⟩ := fin_ex H hy
  exact st_rnd H _

/-- Finite and nonnegative. -/
lemma sq_nn {x : XR} (hx : x.IsFinite) : ∃ y, A.mul x x = .fin y ∧ 0 ≤ y := by
  obtain ⟨a, rfl⟩ := fin_ex H hx
  exact ⟨_, H.rnd _, nonneg H (mul_self_nonneg a)⟩
lemma add_nn {x y : XR} (hx : ∃ a, x = .fin a ∧ 0 ≤ a) (hy : ∃ b, y = .fin b ∧ 0 ≤ b) :
    ∃ c, A.add x y = .fin c ∧ 0 ≤ c := by
  obtain ⟨a, rfl, ha⟩ := hx
  obtain ⟨b, rfl, hb⟩ := hy
  exact ⟨_, H.rnd _, nonneg H (add_nonneg ha hb)⟩
lemma st_sqrt {x : XR} (hx : ∃ a, x = .fin a ∧ 0 ≤ a) : StoredNum f (A.sqrt x) := by
  obtain ⟨a, rfl, ha⟩ := hx
  simp only [XArith.sqrt, if_neg (not_lt.mpr ha)]
  exact st_rnd H _
lemma normSq_nn {v : XV3} (h : v.x.IsFinite ∧ v.y.IsFinite ∧ v.z.IsFinite) : ∃ c, A.normSq3 v = .fin c ∧ 0 ≤ c :=
  add_nn H (sq_nn H h.1) (add_nn H (sq_nn H h.2.1) (sq_nn H h.2.2))
lemma st_norm3 {v : XV3} (h : v.x.IsFinite ∧ v.y.IsFinite ∧ v.z.IsFinite) : StoredNum f (A.norm3 v) := st_sqrt H (normSq_nn H h)
lemma st_smulV {s : XR} {v : XV3} (hs : s.IsFinite) (h : v.x.IsFinite ∧ v.y.IsFinite ∧ v.z.IsFinite) :
    StoredVec f (A.smulV s v) := ⟨st_mul H hs h.1, st_mul H hs h.2.1, st_mul H hs h.2.2⟩
lemma st_divV {s : XR} {v : XV3} (hs : s.IsFinite) (h0 : ¬ s.eq (.fin 0)) (h : v.x.IsFinite ∧ v.y.IsFinite ∧ v.z.IsFinite) :
    StoredVec f (A.divV v s) := ⟨st_div H h.1 hs h0, st_div H h.2.1 hs h0, st_div H h.2.2 hs h0⟩
lemma vec_fin {v : XV3} (h : StoredVec f v) : v.x.IsFinite ∧ v.y.IsFinite ∧ v.z.IsFinite :=
  ⟨stored_fin H h.1, stored_fin H h.2.1, stored_fin H h.2.2⟩
lemma st_vneg {v : XV3} (h : StoredVec f v) : StoredVec f v.neg := ⟨st_neg H h.1, st_neg H h.2.1, st_neg H h.2.2⟩

lemma st_quatMul {a b : XQuat} (ha : StoredRot f .quat a) (hb : StoredRot f .quat b) : StoredRot f .quat (A.quatMul a b) := by
  obtain ⟨a1, a2, a3, a4⟩ := ha
  obtain ⟨b1, b2, b3, b4⟩ := hb
  have F := fun {x : XR} => stored_fin H (x := x)
  refine ⟨?_, ?_, ?_, ?_⟩ <;>
    exact st_sub H (F (by first | exact st_sub H (F (st_sub H (F (st_mul H (F ‹_›) (F ‹_›))) (F (st_mul H (F ‹_›) (F ‹_›))))) (F (st_mul H (F ‹_›) (F ‹_›))) | exact st_add H (F (st_add H (F (st_mul H (F ‹_›) (F ‹_›))) (F (st_mul H (F ‹_›) (F ‹_›))))) (F (st_mul H (F ‹_›) (F ‹_›))))) (F (st_mul H (F ‹_›) (F ‹_›)))

lemma st_quatOfAa {a : XAA} (h : StoredRot f .aa a) : StoredRot f .quat (A.quatOfAa a) := by
  obtain ⟨h1, h2, h3, h4⟩ := h
  have F := fun {x : XR} => stored_fin H (x := x)
  have e := F (st_mul H (x := .fin (1 / 2)) trivial (F h1))
  exact ⟨st_cos H e, st_mul H (F (st_sin H e)) (F h2), st_mul H (F (st_sin H e)) (F h3), st_mul H (F (st_sin H e)) (F h4)⟩

/-- With `m` the largest diagonal entry and not all three positive, the argument of the root is at least 1. -/
lemma diag_ge {m a b : ℝ} (ha : a ≤ m) (hb : b ≤ m) (hm : f m = m) (hn : ¬ (0 < m ∧ 0 < a ∧ 0 < b)) :
    0 ≤ f (f (m - a) - b) := by
  apply nonneg H
  have h1 : 0 ≤ f (m - a) := nonneg H (by linarith)
  by_cases hb0 : b ≤ 0
  · linarith
  · push Not at hb0
    have hm0 : 0 < m := by linarith
    have ha0 : a ≤ 0 := by
      by_contra hc
      exact hn ⟨hm0, not_le.mp hc, hb0⟩
    have : f m ≤ f (m - a) := H.mono (by linarith)
    linarith

lemma st_quatOfMat {m : XM3} (h : StoredRot f .mat m) : StoredRot f .quat (A.quatOfMat m) := by
  obtain ⟨m00, m01, m02, m10, m11, m12, m20, m21, m22⟩ := m
  obtain ⟨⟨h1, h2, h3⟩, ⟨h4, h5, h6⟩, h7, h8, h9⟩ := h
  have F := fun {x : XR} => stored_fin H (x := x)
  obtain ⟨a, rfl⟩ := fin_ex H (F h1)
  obtain ⟨b, rfl⟩ := fin_ex H (F h5)
  obtain ⟨c, rfl⟩ := fin_ex H (F h9)
  have ha : f a = a := h1
  have hb : f b = b := h5
  have hc : f c = c := h9
  have i1 : m01.IsFinite := F h2
  have i2 : m02.IsFinite := F h3
  have i3 : m10.IsFinite := F h4
  have i4 : m12.IsFinite := F h6
  have i5 : m20.IsFinite := F h7
  have i6 : m21.IsFinite := F h8
  have add : ∀ x y : ℝ, A.add (.fin x) (.fin y) = .fin (f (x + y)) := fun x y => H.rnd _
  have sub : ∀ x y : ℝ, A.sub (.fin x) (.fin y) = .fin (f (x - y)) := fun x y => by
    rw [sub_eq_add_neg]; exact H.rnd _
  have root : ∀ x : ℝ, 0 ≤ x → (A.sqrt (A.add (.fin x) (.fin 1))).IsFinite ∧
      (A.div (.fin (1 / 2)) (A.sqrt (A.add (.fin x) (.fin 1)))).IsFinite := by
    intro x hx
    have h1 : 1 ≤ f (x + 1) := ge_one H (by linarith)
    have e : A.sqrt (A.add (.fin x) (.fin 1)) = .fin (f (Real.sqrt (f (x + 1)))) := by
      rw [add]
      simp only [XArith.sqrt, if_neg (not_lt.mpr (zero_le_one.trans h1))]
      exact H.rnd _
    have h2 : 1 ≤ f (Real.sqrt (f (x + 1))) := ge_one H (by simpa using Real.sqrt_le_sqrt h1)
    rw [e]
    refine ⟨trivial, F (st_div H (x := .fin (1 / 2)) trivial trivial ?_)⟩
    intro h0
    have : f (Real.sqrt (f (x + 1))) = 0 := h0
    linarith
  have pos : ¬ 0 < f (f (a + b) + c) → ¬ (0 < a ∧ 0 < b ∧ 0 < c) := by
    rintro hn ⟨p1, p2, p3⟩
    apply hn
    have q1 : 0 ≤ f (a + b) := nonneg H (by linarith)
    have q2 : f c ≤ f (f (a + b) + c) := H.mono (by linarith)
    linarith
  unfold XArith.quatOfMat
  simp only [add, sub, fin_lt]
  by_cases t : 0 < f (f (a + b) + c)
  · obtain ⟨r1, r2⟩ := root _ t.le
    rw [add] at r1 r2
    simp only [if_pos t]
    exact ⟨st_mul H trivial r1, st_mul H (F (st_sub H i6 i4)) r2, st_mul H (F (st_sub H i2 i5)) r2,
      st_mul H (F (st_sub H i3 i1)) r2⟩
  · have hp := pos t
    simp only [if_neg t]
    by_cases t1 : a < b
    · simp only [if_pos t1]
      by_cases t2 : b < c
      · obtain ⟨r1, r2⟩ := root _ (diag_ge H (m := c) (a := a) (b := b) (by linarith) (by linarith) hc (by tauto))
        rw [add] at r1 r2
        simp only [if_pos t2]
        exact ⟨st_mul H (F (st_sub H i3 i1)) r2, st_mul H (F (st_add H i2 i5)) r2, st_mul H (F (st_add H i4 i6)) r2,
          st_mul H trivial r1⟩
      · obtain ⟨r1, r2⟩ := root _ (diag_ge H (m := b) (a := c) (b := a) (by linarith) (by linarith) hb (by tauto))
        rw [add] at r1 r2
        simp only [if_neg t2]
        exact ⟨st_mul H (F (st_sub H i2 i5)) r2, st_mul H (F (st_add H i1 i3)) r2, st_mul H trivial r1,
          st_mul H (F (st_add H i6 i4)) r2⟩
    · simp only [if_neg t1]
      by_cases t2 : a < c
      · obtain ⟨r1, r2⟩ := root _ (diag_ge H (m := c) (a := a) (b := b) (by linarith) (by linarith) hc (by tauto))
        rw [add] at r1 r2
        simp only [if_pos t2]
        exact ⟨st_mul H (F (st_sub H i3 i1)) r2, st_mul H (F (st_add H i2 i5)) r2, st_mul H (F (st_add H i4 i6)) r2,
          st_mul H trivial r1⟩
      · obtain ⟨r1, r2⟩ := root _ (diag_ge H (m := a) (a := b) (b := c) (by linarith) (by linarith) ha (by tauto))
        rw [add] at r1 r2
        simp only [if_neg t2]
        exact ⟨st_mul H (F (st_sub H i6 i4)) r2, st_mul H trivial r1, st_mul H (F (st_add H i3 i1)) r2,
          st_mul H (F (st_add H i5 i2)) r2⟩

/-- Finiteness of composed operations. -/
macro "fins" H:term : tactic => `(tactic| repeat' (first
  | assumption
  | exact trivial
  | (refine stored_fin $H ?_; assumption)
  | refine st_add $H ?_ ?_ | refine st_sub $H ?_ ?_ | refine st_mul $H ?_ ?_ | refine st_neg $H ?_ | refine st_abs $H ?_
  | refine st_sin $H ?_ | refine st_cos $H ?_ | refine st_atan2 $H ?_ ?_ | exact st_zero $H | exact st_one $H
  | refine stored_fin $H (st_add $H ?_ ?_) | refine stored_fin $H (st_sub $H ?_ ?_) | refine stored_fin $H (st_mul $H ?_ ?_)
  | refine stored_fin $H (st_sin $H ?_) | refine stored_fin $H (st_cos $H ?_) | refine stored_fin $H (st_atan2 $H ?_ ?_)
  | refine fin_neg' $H ?_ | refine fin_abs' $H ?_))

lemma st_dot3 {a b : XV3} (ha : StoredVec f a) (hb : b.x.IsFinite ∧ b.y.IsFinite ∧ b.z.IsFinite) : StoredNum f (A.dot3 a b) := by
  obtain ⟨a1, a2, a3⟩ := ha
  obtain ⟨b1, b2, b3⟩ := hb
  unfold XArith.dot3
  fins H

lemma st_mulVec {m : XM3} {v : XV3} (h : StoredRot f .mat m) (hv : v.x.IsFinite ∧ v.y.IsFinite ∧ v.z.IsFinite) :
    StoredVec f (A.mulVec m v) := ⟨st_dot3 H h.1 hv, st_dot3 H h.2.1 hv, st_dot3 H h.2.2 hv⟩

lemma st_transpose {m : XM3} (h : StoredRot f .mat m) : StoredRot f .mat m.transpose := by
  obtain ⟨⟨h1, h2, h3⟩, ⟨h4, h5, h6⟩, h7, h8, h9⟩ := h
  exact ⟨⟨h1, h4, h7⟩, ⟨h2, h5, h8⟩, h3, h6, h9⟩

lemma st_matMul {a b : XM3} (ha : StoredRot f .mat a) (hb : StoredRot f .mat b) : StoredRot f .mat (A.matMul a b) := by
  obtain ⟨t0, t1, t2⟩ := st_transpose H hb
  have g : ∀ r : XV3, StoredVec f r → StoredVec f ⟨A.dot3 r (XArith.row b.transpose 0), A.dot3 r (XArith.row b.transpose 1),
      A.dot3 r (XArith.row b.transpose 2)⟩ :=
    fun r hr => ⟨st_dot3 H hr (vec_fin H t0), st_dot3 H hr (vec_fin H t1), st_dot3 H hr (vec_fin H t2)⟩
  exact ⟨g _ ha.1, g _ ha.2.1, g _ ha.2.2⟩

lemma st_matOfQuat {q : XQuat} (h : StoredRot f .quat q) : StoredRot f .mat (A.matOfQuat q) := by
  obtain ⟨h1, h2, h3, h4⟩ := h
  refine ⟨⟨?_, ?_, ?_⟩, ⟨?_, ?_, ?_⟩, ?_, ?_, ?_⟩ <;> dsimp only [XArith.matOfQuat, XArith.row] <;> fins H

lemma st_matOfAa {a : XAA} (h : StoredRot f .aa a) : StoredRot f .mat (A.matOfAa a) := by
  obtain ⟨h1, h2, h3, h4⟩ := h
  refine ⟨⟨?_, ?_, ?_⟩, ⟨?_, ?_, ?_⟩, ?_, ?_, ?_⟩ <;> dsimp only [XArith.matOfAa, XArith.row, XArith.smulV] <;> fins H

lemma st_quatOfRv (P : Prec) {v : XV3} (h : v.x.IsFinite ∧ v.y.IsFinite ∧ v.z.IsFinite) : StoredRot f .quat (A.quatOfRv P v) := by
  have hn := st_norm3 H h
  obtain ⟨h1, h2, h3⟩ := h
  have key : StoredNum f (if (A.norm3 v).lt (.fin (P.eps ^ (1 / 4 : ℝ))) then
      A.sub (.fin (1 / 2)) (A.mul (A.mul (A.norm3 v) (A.norm3 v)) (.fin (1 / 48)))
    else A.div (A.sin (A.mul (A.norm3 v) (.fin (1 / 2)))) (A.norm3 v)) := by
    split_ifs with hl
    · fins H
    · refine st_div H (by fins H) (by fins H) ?_
      intro h0
      apply hl
      obtain ⟨y, hy⟩ := fin_ex H (stored_fin H hn)
      rw [hy] at h0 ⊢
      have : y = 0 := h0
      rw [this]
      exact e4_pos P
  refine ⟨?_, ?_, ?_, ?_⟩
  · dsimp only [XArith.quatOfRv]; fins H
  all_goals
    dsimp only [XArith.quatOfRv, XArith.smulV]
    exact st_mul H (stored_fin H key) ‹_›

lemma st_quatOfThree {a b c : XAA} (ha : StoredRot f .aa a) (hb : StoredRot f .aa b) (hc : StoredRot f .aa c) :
    StoredRot f .quat (A.quatOfThree a b c) :=
  st_quatMul H (st_quatMul H (st_quatOfAa H ha) (st_quatOfAa H hb)) (st_quatOfAa H hc)

lemma st_quatOfXyz {v : XV3} (h : StoredVec f v) : StoredRot f .quat (A.quatOfXyz v) :=
  st_quatOfThree H ⟨h.1, st_one H, st_zero H, st_zero H⟩ ⟨h.2.1, st_zero H, st_one H, st_zero H⟩ ⟨h.2.2, st_zero H, st_zero H, st_one H⟩
lemma st_quatOfZyx {v : XV3} (h : StoredVec f v) : StoredRot f .quat (A.quatOfZyx v) :=
  st_quatOfThree H ⟨h.1, st_zero H, st_zero H, st_one H⟩ ⟨h.2.1, st_zero H, st_one H, st_zero H⟩ ⟨h.2.2, st_one H, st_zero H, st_zero H⟩

lemma st_ite {c : Prop} {x y : XR} (hx : c → StoredNum f x) (hy : ¬ c → StoredNum f y) : StoredNum f (if c then x else y) := by
  split_ifs with h
  · exact hx h
  · exact hy h

lemma st_angles012 {m : XM3} (h : StoredRot f .mat m) : StoredVec f (A.eulerAngles012 m) := by
  obtain ⟨⟨h1, h2, h3⟩, ⟨h4, h5, h6⟩, h7, h8, h9⟩ := h
  dsimp only [XArith.row] at h1 h2 h3 h4 h5 h6 h7 h8 h9
  have F := fun {x : XR} => stored_fin H (x := x)
  have c2 : StoredNum f (A.sqrt (A.add (A.mul m.m00 m.m00) (A.mul m.m01 m.m01))) :=
    st_sqrt H (add_nn H (sq_nn H (F h1)) (sq_nn H (F h2)))
  unfold XArith.eulerAngles012
  dsimp only
  split_ifs with t
  all_goals
    refine ⟨?_, ?_, ?_⟩ <;> dsimp only <;> fins H

lemma st_angles210 {m : XM3} (h : StoredRot f .mat m) : StoredVec f (A.eulerAngles210 m) := by
  obtain ⟨⟨h1, h2, h3⟩, ⟨h4, h5, h6⟩, h7, h8, h9⟩ := h
  dsimp only [XArith.row] at h1 h2 h3 h4 h5 h6 h7 h8 h9
  have F := fun {x : XR} => stored_fin H (x := x)
  have c2 : StoredNum f (A.sqrt (A.add (A.mul m.m22 m.m22) (A.mul m.m21 m.m21))) :=
    st_sqrt H (add_nn H (sq_nn H (F h9)) (sq_nn H (F h8)))
  unfold XArith.eulerAngles210
  dsimp only
  split_ifs with t
  all_goals
    refine ⟨?_, ?_, ?_⟩ <;> dsimp only <;> fins H

lemma st_xyzOfQuat {q : XQuat} (h : StoredRot f .quat q) : StoredVec f (A.xyzOfQuat q) := st_angles012 H (st_matOfQuat H h)
lemma st_zyxOfQuat {q : XQuat} (h : StoredRot f .quat q) : StoredVec f (A.zyxOfQuat q) := st_angles210 H (st_matOfQuat H h)

lemma st_aaOfQuat {q : XQuat} (h : StoredRot f .quat q) : StoredRot f .aa (A.aaOfQuat q) := by
  obtain ⟨h1, h2, h3, h4⟩ := h
  have F := fun {x : XR} => stored_fin H (x := x)
  have hv : q.vec.x.IsFinite ∧ q.vec.y.IsFinite ∧ q.vec.z.IsFinite := ⟨F h2, F h3, F h4⟩
  have hn := st_norm3 H hv
  unfold XArith.aaOfQuat
  dsimp only
  by_cases h0 : (A.norm3 q.vec).eq (.fin 0)
  · rw [if_neg (not_not.mpr h0)]
    exact ⟨st_zero H, st_one H, st_zero H, st_zero H⟩
  · rw [if_pos h0]
    split_ifs with hw
    · refine ⟨by dsimp only; fins H, st_divV H (by fins H) ?_ hv⟩
      intro hc
      apply h0
      obtain ⟨y, hy⟩ := fin_ex H (F hn)
      rw [hy] at hc ⊢
      have : -y = 0 := hc
      change y = 0
      linarith
    · exact ⟨by dsimp only; fins H, st_divV H (by fins H) h0 hv⟩

lemma sqrt_pos_of {n : XR} (hst : StoredNum f n) (hp : XR.lt (.fin 0) n) : ¬ (A.sqrt n).eq (.fin 0) := by
  obtain ⟨x, hx⟩ := fin_ex H (stored_fin H hst)
  rw [hx] at hp hst ⊢
  have h0 : 0 < x := hp
  have hx' : f x = x := hst
  simp only [XArith.sqrt, if_neg (not_lt.mpr h0.le), H.rnd]
  have : 0 < f (Real.sqrt x) := by
    rcases le_total x 1 with h1 | h1
    · have : x ≤ Real.sqrt x := Real.le_sqrt_of_sq_le (by nlinarith)
      have := H.mono this
      linarith
    · have := ge_one H (x := Real.sqrt x) (by simpa using Real.sqrt_le_sqrt h1)
      linarith
  exact this.ne'

lemma norm_pos_of {v : XV3} (h : v.x.IsFinite ∧ v.y.IsFinite ∧ v.z.IsFinite) (hp : XR.lt (.fin 0) (A.normSq3 v)) :
    ¬ (A.norm3 v).eq (.fin 0) := by
  unfold XArith.norm3
  refine sqrt_pos_of H ?_ hp
  obtain ⟨h1, h2, h3⟩ := h
  unfold XArith.normSq3
  fins H

lemma st_normalized {v : XV3} (h : StoredVec f v) : StoredVec f (A.normalized v) := by
  unfold XArith.normalized
  split_ifs with hp
  · exact st_divV H (stored_fin H (st_norm3 H (vec_fin H h))) (norm_pos_of H (vec_fin H h) hp) (vec_fin H h)
  · exact h

lemma st_aaOfRv (P : Prec) {v : XV3} (h : StoredVec f v) : StoredRot f .aa (A.aaOfRv P v) := by
  unfold XArith.aaOfRv
  dsimp only
  split_ifs
  · exact ⟨st_zero H, st_one H, st_zero H, st_zero H⟩
  · exact ⟨st_norm3 H (vec_fin H h), st_normalized H h⟩

lemma st_rvOfAa {a : XAA} (h : StoredRot f .aa a) : StoredVec f (A.rvOfAa a) := st_smulV H (stored_fin H h.1) (vec_fin H h.2)

lemma fin_floor {x : XR} (h : x.IsFinite) : x.floor.IsFinite := by cases x <;> simp_all [XR.floor, XR.IsFinite]

lemma st_wrap {x : XR} (h : x.IsFinite) : StoredNum f (A.wrapPosNegPI x) := by
  unfold XArith.wrapPosNegPI
  have hy : ¬ XR.eq (.fin (2 * Real.pi)) (.fin 0) := by
    change ¬ 2 * Real.pi = 0
    positivity
  have hm : StoredNum f (A.sub (A.add x (.fin Real.pi)) (A.mul (.fin (2 * Real.pi)) (A.div (A.add x (.fin Real.pi)) (.fin (2 * Real.pi))).floor)) := by
    have : (A.div (A.add x (.fin Real.pi)) (.fin (2 * Real.pi))).floor.IsFinite :=
      fin_floor H (stored_fin H (st_div H (by fins H) trivial hy))
    fins H
  have key : (A.floatingPointModulo (A.add x (.fin Real.pi)) (.fin (2 * Real.pi))).IsFinite := by
    unfold XArith.floatingPointModulo
    rw [if_neg hy]
    dsimp only
    split_ifs <;> fins H
  fins H

lemma st_aaUnique {a : XAA} (h : StoredRot f .aa a) : StoredRot f .aa (A.aaGetUnique a) := by
  have hw := st_wrap H (stored_fin H h.1)
  have hn := st_vneg H h.2
  unfold XArith.aaGetUnique
  dsimp only
  split_ifs
  all_goals first
    | exact ⟨hw, h.2⟩
    | exact ⟨st_neg H hw, hn⟩
    | exact ⟨st_neg H hw, h.2⟩
    | exact ⟨st_zero H, st_one H, st_zero H, st_zero H⟩

lemma st_qneg {q : XQuat} (h : StoredRot f .quat q) : StoredRot f .quat q.neg := ⟨st_neg H h.1, st_neg H h.2.1, st_neg H h.2.2.1, st_neg H h.2.2.2⟩

lemma st_quatUnique {q : XQuat} (h : StoredRot f .quat q) : StoredRot f .quat (XArith.quatGetUnique q) := by
  have hn := st_qneg H h
  unfold XArith.quatGetUnique
  dsimp only
  split_ifs
  all_goals first | exact h | exact hn

lemma st_eulerUnique {v : XV3} (h : StoredVec f v) : StoredVec f (A.eulerUniqueBody v) := by
  have F := fun {x : XR} => stored_fin H (x := x)
  have hx := st_wrap H (F h.1)
  have hy := st_wrap H (F h.2.1)
  have hz := st_wrap H (F h.2.2)
  unfold XArith.eulerUniqueBody
  dsimp only
  split_ifs
  all_goals
    refine ⟨?_, ?_, ?_⟩ <;> dsimp only <;> fins H

lemma st_getUnique (P : Prec) (k : Kind) {r : XRep k} (h : StoredRot f k r) : StoredRot f k (A.getUnique P k r) := by
  cases k
  · exact st_quatUnique H h
  · exact h
  · exact st_aaUnique H h
  · exact st_rvOfAa H (st_aaUnique H (st_aaOfRv H P h))
  · exact st_eulerUnique H h
  · exact st_eulerUnique H h

lemma st_qinv {q : XQuat} (h : StoredRot f .quat q) : StoredRot f .quat (XArith.quatInverted q) :=
  ⟨h.1, st_neg H h.2.1, st_neg H h.2.2.1, st_neg H h.2.2.2⟩

lemma st_inverted (k : Kind) {r : XRep k} (h : StoredRot f k r) : StoredRot f k (A.inverted k r) := by
  cases k
  · exact st_qinv H h
  · exact st_transpose H h
  · exact ⟨st_neg H (st_neg H h.1), st_vneg H h.2⟩
  · exact st_vneg H h
  · exact st_xyzOfQuat H (st_qinv H (st_quatOfXyz H h))
  · exact st_zyxOfQuat H (st_qinv H (st_quatOfZyx H h))

lemma st_toQuat (P : Prec) (k : Kind) {r : XRep k} (h : StoredRot f k r) : StoredRot f .quat (A.conv P .quat k r) := by
  cases k
  · exact h
  · exact st_quatOfMat H h
  · exact st_quatOfAa H h
  · exact st_quatOfRv H P (vec_fin H h)
  · exact st_quatOfXyz H h
  · exact st_quatOfZyx H h

/-- Conversions, except into a rotation vector from a quaternion or a matrix. -/
lemma st_conv (P : Prec) (d s : Kind) (hd : d = .rv → s ≠ .quat ∧ s ≠ .mat) {r : XRep s} (h : StoredRot f s r) :
    StoredRot f d (A.conv P d s r) := by
  cases d
  · exact st_toQuat H P s h
  · cases s
    · exact st_matOfQuat H h
    · exact h
    · exact st_matOfAa H h
    · exact st_matOfQuat H (st_quatOfRv H P (vec_fin H h))
    · exact st_matOfQuat H (st_quatOfXyz H h)
    · exact st_matOfQuat H (st_quatOfZyx H h)
  · cases s
    · exact st_aaOfQuat H h
    · exact st_aaOfQuat H (st_quatOfMat H h)
    · exact h
    · exact st_aaOfRv H P h
    · exact st_aaOfQuat H (st_quatOfXyz H h)
    · exact st_aaOfQuat H (st_quatOfZyx H h)
  · cases s
    · exact absurd rfl (hd rfl).1
    · exact absurd rfl (hd rfl).2
    · exact st_rvOfAa H h
    · exact h
    · exact st_rvOfAa H (st_aaOfQuat H (st_quatOfXyz H h))
    · exact st_rvOfAa H (st_aaOfQuat H (st_quatOfZyx H h))
  · cases s
    · exact st_xyzOfQuat H h
    · exact st_xyzOfQuat H (st_quatOfMat H h)
    · exact st_xyzOfQuat H (st_quatOfAa H h)
    · exact st_xyzOfQuat H (st_quatOfAa H (st_aaOfRv H P h))
    · exact h
    · exact st_xyzOfQuat H (st_quatOfZyx H h)
  · cases s
    · exact st_zyxOfQuat H h
    · exact st_zyxOfQuat H (st_quatOfMat H h)
    · exact st_zyxOfQuat H (st_quatOfAa H h)
    · exact st_zyxOfQuat H (st_quatOfRv H P (vec_fin H h))
    · exact st_zyxOfQuat H (st_quatOfXyz H h)
    · exact h

lemma st_mult (P : Prec) (k₁ k₂ : Kind) (hk : k₁ ≠ .rv) {a : XRep k₁} {b : XRep k₂} (ha : StoredRot f k₁ a) (hb : StoredRot f k₂ b) :
    StoredRot f k₁ (A.mult P k₁ k₂ a b) := by
  have gen : StoredRot f k₁ (A.conv P k₁ .quat (A.quatMul (A.conv P .quat k₁ a) (A.conv P .quat k₂ b))) :=
    st_conv H P k₁ .quat (fun h => absurd h hk) (st_quatMul H (st_toQuat H P k₁ ha) (st_toQuat H P k₂ hb))
  cases k₁ <;> cases k₂ <;> first | exact gen | exact st_matMul H ha hb

lemma st_rotate (P : Prec) (k : Kind) {r : XRep k} (h : StoredRot f k r) {v : XV3} (hv : v.x.IsFinite ∧ v.y.IsFinite ∧ v.z.IsFinite) :
    StoredVec f (A.rotate P k r v) := st_mulVec H (st_conv H P .mat k (fun h => nomatch h) h) hv

lemma st_exp (P : Prec) (k : Kind) {v : XV3} (h : StoredVec f v) : StoredRot f k (A.exponentialMap P k v) :=
  st_conv H P k .rv (fun _ => ⟨by decide, by decide⟩) h

lemma st_boxPlus (P : Prec) (k : Kind) (hk : k ≠ .rv) {a : XRep k} (ha : StoredRot f k a) {v : XV3} (h : StoredVec f v) :
    StoredRot f k (A.boxPlus P k a v) := st_mult H P k k hk (st_exp H P k h) ha

lemma st_disparity (P : Prec) (k₁ k₂ : Kind) (hk : k₁ ≠ .rv) {a : XRep k₁} {b : XRep k₂} (ha : StoredRot f k₁ a) (hb : StoredRot f k₂ b) :
    StoredNum f (A.disparityAngle P k₁ k₂ a b) := by
  have := st_conv H P .aa k₁ (fun h => nomatch h) (st_mult H P k₁ k₂ hk ha (st_inverted H k₂ hb))
  exact st_abs H (st_wrap H (stored_fin H this.1))

lemma st_log (P : Prec) (k : Kind) (hk : RvSource k) {r : XRep k} (h : StoredRot f k r) : StoredVec f (A.logarithmicMap P k r) :=
  st_getUnique H P .rv (st_conv H P .rv k (fun _ => hk) h)

lemma st_identity (k : Kind) : StoredRot f k (XArith.identity k) := by
  have z := st_zero H
  have o := st_one H
  cases k
  · exact ⟨o, z, z, z⟩
  · exact ⟨⟨o, z, z⟩, ⟨z, o, z⟩, z, z, o⟩
  · exact ⟨z, o, z, z⟩
  all_goals exact ⟨z, z, z⟩

lemma st_quatFix {q : XQuat} (h : StoredRot f .quat q) : StoredRot f .quat (A.quatFix q) := by
  obtain ⟨h1, h2, h3, h4⟩ := h
  have F := fun {x : XR} => stored_fin H (x := x)
  have nn := add_nn H (add_nn H (add_nn H (sq_nn H (F h1)) (sq_nn H (F h2))) (sq_nn H (F h3))) (sq_nn H (F h4))
  have hst : StoredNum f (A.add (A.add (A.add (A.mul q.w q.w) (A.mul q.x q.x)) (A.mul q.y q.y)) (A.mul q.z q.z)) := by fins H
  have hn : StoredNum f (A.quatNorm q) := st_sqrt H nn
  unfold XArith.quatFix
  dsimp only
  split_ifs with hp
  · have h0 : ¬ (A.quatNorm q).eq (.fin 0) := by
      unfold XArith.quatNorm
      exact sqrt_pos_of H hst hp
    exact ⟨st_div H (F h1) (F hn) h0, st_div H (F h2) (F hn) h0, st_div H (F h3) (F hn) h0, st_div H (F h4) (F hn) h0⟩
  · exact ⟨h1, h2, h3, h4⟩
end Rd

/-- **C96, rounding modes.** Binary floating point with any rounding mode and any precision (`double`: `p = 53`, `float`: `p = 24`)
meets the hypotheses, as long as exponents do not leave the range of the format. -/
theorem C96_binary {p : ℕ} {fl : ℝ → ℝ} (hp : 0 < p) (h : BinaryRounding p fl) :
    RoundsTo (binaryArith p fl h) fl ∧ NoUnderflow fl := by
  have two : ∀ e : ℤ, fl ((2 : ℝ) ^ e) = (2 : ℝ) ^ e := fun e => h.fix _ (isFloat_two_zpow hp e)
  have hneg : ∀ x, fl x = x → fl (-x) = -x := fun x hx => h.fix _ ((hx ▸ h.range x).neg)
  have h0 : fl 0 = 0 := h.map_zero
  have pos : ∀ x, 0 < x → 0 < fl x := by
    intro x hx
    obtain ⟨n, hn⟩ := exists_pow_lt_of_lt_one hx (by norm_num : (1 / 2 : ℝ) < 1)
    have e : ((2 : ℝ) ^ (-(n : ℤ))) = (1 / 2) ^ n := by rw [zpow_neg, zpow_natCast, one_div, inv_pow]
    have h1 := h.mono hn.le
    rw [← e, two] at h1
    exact lt_of_lt_of_le (by positivity) h1
  refine ⟨⟨fun _ => rfl, h.mono, fun x => h.fix _ (h.range x), hneg, h0, by simpa using two 0⟩, ?_⟩
  intro x hx
  rcases lt_trichotomy x 0 with hl | hl | hl
  · obtain ⟨n, hn⟩ := exists_pow_lt_of_lt_one (neg_pos.mpr hl) (by norm_num : (1 / 2 : ℝ) < 1)
    have e : ((2 : ℝ) ^ (-(n : ℤ))) = (1 / 2) ^ n := by rw [zpow_neg, zpow_natCast, one_div, inv_pow]
    have h1 : fl x ≤ fl (-(1 / 2) ^ n) := h.mono (by linarith)
    rw [← e, hneg _ (two _)] at h1
    have : (0 : ℝ) < 2 ^ (-(n : ℤ)) := by positivity
    linarith
  · exact hl
  · exact absurd hx (pos x hl).ne'

/-- **C96, conversions and operations.** Whatever finite numbers are stored (a quaternion of any norm, a matrix that is no rotation,
a zero axis), every conversion not into a `RotationVector` from a quaternion or a matrix, `inverted`, `getUnique`, `fix` of quaternions
and angle-axes, `rotate`, `inverseRotate`, products, the exponential map, `boxPlus`, disparity angles and logarithmic maps
return finite numbers. -/
theorem C96_operations {A : XArith} {f : ℝ → ℝ} (H : RoundsTo A f) (P : Prec) (k₁ k₂ : Kind) (a : XRep k₁) (b : XRep k₂)
    (ha : StoredRot f k₁ a) (hb : StoredRot f k₂ b) (v : XV3) (hv : StoredVec f v) :
    ((k₁ = .rv → RvSource k₂) → StoredRot f k₁ (A.conv P k₁ k₂ b)) ∧
    StoredRot f k₁ (XArith.identity k₁) ∧
    StoredRot f k₁ (A.inverted k₁ a) ∧
    StoredRot f k₁ (A.getUnique P k₁ a) ∧
    (k₁ ≠ .mat → StoredRot f k₁ (A.fix k₁ a)) ∧
    StoredVec f (A.rotate P k₁ a v) ∧
    StoredVec f (A.inverseRotate P k₁ a v) ∧
    StoredRot f k₁ (A.exponentialMap P k₁ v) ∧
    (k₁ ≠ .rv → StoredRot f k₁ (A.mult P k₁ k₂ a b)) ∧
    (k₁ ≠ .rv → StoredRot f k₁ (A.boxPlus P k₁ a v)) ∧
    (k₁ ≠ .rv → StoredNum f (A.disparityAngle P k₁ k₂ a b)) ∧
    (RvSource k₁ → StoredVec f (A.logarithmicMap P k₁ a)) ∧
    (RvSource k₁ → k₁ ≠ .rv → StoredVec f (A.boxMinus P k₁ k₂ a b)) := by
  refine ⟨fun h => Rd.st_conv H P k₁ k₂ h hb, Rd.st_identity H k₁, Rd.st_inverted H k₁ ha, Rd.st_getUnique H P k₁ ha, ?_,
    Rd.st_rotate H P k₁ ha (Rd.vec_fin H hv), Rd.st_rotate H P k₁ (Rd.st_inverted H k₁ ha) (Rd.vec_fin H hv), Rd.st_exp H P k₁ hv,
    fun h => Rd.st_mult H P k₁ k₂ h ha hb, fun h => Rd.st_boxPlus H P k₁ h ha hv, fun h => Rd.st_disparity H P k₁ k₂ h ha hb,
    fun h => Rd.st_log H P k₁ h ha, fun h h' => Rd.st_log H P k₁ h (Rd.st_mult H P k₁ k₂ h' ha (Rd.st_inverted H k₂ hb))⟩
  intro hk
  cases k₁
  · exact Rd.st_quatFix H ha
  · exact absurd rfl hk
  · exact ⟨ha.1, Rd.st_normalized H ha.2⟩
  all_goals exact ha

/-- **C96, the exception.** A rotation vector computed from a quaternion is finite exactly if the computed length of the vector part
is not zero or the computed `1 - w^2` is below the threshold; otherwise none of its coefficients is finite.  From a matrix: the same for
the quaternion of the matrix, whose coefficients are finite. -/
theorem C96_log {A : XArith} {f : ℝ → ℝ} (H : RoundsTo A f) (P : Prec) (q : XQuat) (hq : StoredRot f .quat q) (m : XM3)
    (hm : StoredRot f .mat m) :
    (¬ (A.norm3 q.vec).eq (.fin 0) ∨ (A.sub (.fin 1) (A.mul q.w q.w)).lt (.fin P.dp) → StoredVec f (A.conv P .rv .quat q)) ∧
    (¬ (¬ (A.norm3 q.vec).eq (.fin 0) ∨ (A.sub (.fin 1) (A.mul q.w q.w)).lt (.fin P.dp)) →
      ¬ (A.conv P .rv .quat q : XV3).x.IsFinite ∧ ¬ (A.conv P .rv .quat q : XV3).y.IsFinite ∧
      ¬ (A.conv P .rv .quat q : XV3).z.IsFinite) ∧
    StoredRot f .quat (A.quatOfMat m) ∧ A.conv P .rv .mat m = A.conv P .rv .quat (A.quatOfMat m) := by
  have F := fun {x : XR} => Rd.stored_fin H (x := x)
  have hv : q.vec.x.IsFinite ∧ q.vec.y.IsFinite ∧ q.vec.z.IsFinite := ⟨F hq.2.1, F hq.2.2.1, F hq.2.2.2⟩
  have hn := Rd.st_norm3 H hv
  have hw := F hq.1
  refine ⟨?_, ?_, Rd.st_quatOfMat H hm, rfl⟩
  · intro h
    change StoredVec f (A.rvOfQuat P q)
    unfold XArith.rvOfQuat
    dsimp only
    split_ifs with h1 h2
    · exact Rd.st_smulV H trivial hv
    · exact Rd.st_smulV H trivial hv
    · refine Rd.st_smulV H (F (Rd.st_div H ?_ (F hn) (h.resolve_right h1))) hv
      exact F (Rd.st_mul H trivial (F (Rd.st_atan2 H (F hn) hw)))
  · intro h
    push Not at h
    obtain ⟨h0, h1⟩ := h
    change ¬ (A.rvOfQuat P q).x.IsFinite ∧ ¬ (A.rvOfQuat P q).y.IsFinite ∧ ¬ (A.rvOfQuat P q).z.IsFinite
    unfold XArith.rvOfQuat
    dsimp only
    rw [if_neg h1]
    obtain ⟨n, hn'⟩ := Rd.fin_ex H (F hn)
    rw [hn'] at h0 ⊢
    have hz : n = 0 := h0
    obtain ⟨t, ht⟩ := Rd.fin_ex H (F (Rd.st_mul H (x := .fin 2) (y := A.atan2 (.fin n) q.w) trivial (F (Rd.st_atan2 H trivial hw))))
    rw [ht]
    have bad : ∀ x : XR, x.IsFinite → ¬ (A.mul (A.div (.fin t) (.fin n)) x).IsFinite := by
      intro x hx
      obtain ⟨y, rfl⟩ := Rd.fin_ex H hx
      simp only [XArith.div, if_pos hz]
      by_cases t0 : t = 0
      · rw [if_pos t0]; exact id
      · rw [if_neg t0]
        simp only [XArith.mul]
        split_ifs <;> exact id
    exact ⟨bad _ hv.1, bad _ hv.2.1, bad _ hv.2.2⟩

/-- **C96, programs.** Any program over variables of any classes that never computes a rotation vector from a quaternion or a matrix,
started with any finite stored numbers, keeps all variables finite and prints only finite numbers, under any rounding. -/
theorem C96_programs {A : XArith} {f : ℝ → ℝ} (H : RoundsTo A f) (P : Prec) (cls : ℕ → Kind) (σ : (i : ℕ) → XRep (cls i))
    (p : List Cmd) (hσ : ∀ i, StoredRot f (cls i) (σ i)) (hp : ∀ c ∈ p, RvFree cls c)
    (hc : ∀ c ∈ p, ∀ d w, (c = .exp d w ∨ ∃ a, c = .boxPlus d a w) → StoredVec f (emb3 w)) :
    (∀ i, StoredRot f (cls i) ((xRun A P cls σ p).1 i)) ∧ ∀ o ∈ (xRun A P cls σ p).2, StoredOut f o := by
  induction p generalizing σ with
  | nil => exact ⟨hσ, fun o ho => by cases ho⟩
  | cons c p ih =>
    have up : ∀ d (x : XRep (cls d)), StoredRot f (cls d) x → ∀ i, StoredRot f (cls i) (Function.update σ d x i) := by
      intro d x hx i
      by_cases e : i = d
      · subst e
        rw [Function.update_self]
        exact hx
      · rw [Function.update_of_ne e]
        exact hσ i
    have hf := hp c (by simp)
    have one : (∀ i, StoredRot f (cls i) ((xStep A P cls σ c).1 i)) ∧ ∀ o ∈ (xStep A P cls σ c).2, StoredOut f o := by
      cases c with
      | assign d s => exact ⟨up d _ (Rd.st_conv H P _ _ hf (hσ s)), fun o ho => by cases ho⟩
      | mul d a b => exact ⟨up d _ (Rd.st_conv H P _ _ hf.2 (Rd.st_mult H P _ _ hf.1 (hσ a) (hσ b))), fun o ho => by cases ho⟩
      | inv d a => exact ⟨up d _ (Rd.st_conv H P _ _ hf (Rd.st_inverted H _ (hσ a))), fun o ho => by cases ho⟩
      | setIdentity d => exact ⟨up d _ (Rd.st_identity H _), fun o ho => by cases ho⟩
      | exp d w => exact ⟨up d _ (Rd.st_exp H P _ (hc _ (by simp) d w (Or.inl rfl))), fun o ho => by cases ho⟩
      | boxPlus d a w =>
        exact ⟨up d _ (Rd.st_conv H P _ _ hf.2 (Rd.st_boxPlus H P _ hf.1 (hσ a) (hc _ (by simp) d w (Or.inr ⟨a, rfl⟩)))),
          fun o ho => by cases ho⟩
      | setUnique d => exact ⟨up d _ (Rd.st_getUnique H P _ (hσ d)), fun o ho => by cases ho⟩
      | rotate a v =>
        refine ⟨hσ, fun o ho => ?_⟩
        obtain rfl := List.mem_singleton.mp ho
        exact Rd.st_rotate H P _ (hσ a) ⟨trivial, trivial, trivial⟩
      | inverseRotate a v =>
        refine ⟨hσ, fun o ho => ?_⟩
        obtain rfl := List.mem_singleton.mp ho
        exact Rd.st_rotate H P _ (Rd.st_inverted H _ (hσ a)) ⟨trivial, trivial, trivial⟩
      | disparity a b =>
        refine ⟨hσ, fun o ho => ?_⟩
        obtain rfl := List.mem_singleton.mp ho
        exact Rd.st_disparity H P _ _ hf (hσ a) (hσ b)
      | isNear a b tol =>
        refine ⟨hσ, fun o ho => ?_⟩
        obtain rfl := List.mem_singleton.mp ho
        trivial
    obtain ⟨i1, i2⟩ := ih _ one.1 (fun c hc => hp c (List.mem_cons_of_mem _ hc)) (fun c h => hc c (List.mem_cons_of_mem _ h))
    refine ⟨i1, fun o ho => ?_⟩
    rcases List.mem_append.mp ho with h | h
    · exact one.2 o h
    · exact i2 o h

/-! ## `setFromVectors`, rates, Jacobian, poses -/

/-- **C96, `setFromVectors`.** For nonzero computed lengths the quaternion is finite (for every class but `RotationVector` the result too);
`svd` stands for Eigen's singular value decomposition, assumed to return finite numbers. -/
theorem C96_setFromVectors {A : XArith} {f : ℝ → ℝ} (H : RoundsTo A f) (P : Prec) (dpE : ℝ) (hdp : 0 < dpE) (hd1 : dpE ≤ 1)
    (hds : f dpE = dpE) (svd : XV3 → XV3 → XV3)
    (hsvd : ∀ a b, StoredVec f a → StoredVec f b → StoredVec f (svd a b)) (k : Kind) (hk : k ≠ .rv) (v w : XV3)
    (hv : StoredVec f v) (hw : StoredVec f w) :
    A.setFromVectors P dpE svd k v w = .throws ∨ ∃ r, A.setFromVectors P dpE svd k v w = .ok r ∧ StoredRot f k r := by
  unfold XArith.setFromVectors
  split_ifs with h0
  · exact Or.inl rfl
  · refine Or.inr ⟨_, rfl, Rd.st_conv H P k .quat (fun h => absurd h hk) ?_⟩
    have F := fun {x : XR} => Rd.stored_fin H (x := x)
    have nv := Rd.st_normalized H hv
    have nw := Rd.st_normalized H hw
    have hc := Rd.st_dot3 H nw (Rd.vec_fin H nv)
    have sq : ∀ x : ℝ, 0 ≤ x → StoredNum f (A.sqrt (.fin x)) := fun x hx => Rd.st_sqrt H ⟨x, rfl, hx⟩
    unfold XArith.quatFromTwoVectors
    dsimp only
    obtain ⟨c, hc'⟩ := Rd.fin_ex H (F hc)
    rw [hc'] at hc ⊢
    have hcf : f c = c := hc
    have add : ∀ x y : ℝ, A.add (.fin x) (.fin y) = .fin (f (x + y)) := fun x y => H.rnd _
    have sub : ∀ x y : ℝ, A.sub (.fin x) (.fin y) = .fin (f (x - y)) := fun x y => by
      rw [sub_eq_add_neg]; exact H.rnd _
    have mul : ∀ x y : ℝ, A.mul (.fin x) (.fin y) = .fin (f (x * y)) := fun x y => H.rnd _
    split_ifs with h
    · have h' : c < -1 + dpE := h
      simp only [fin_max, add, mul, sub]
      have e1 : 0 ≤ f (1 + max c (-1)) := Rd.nonneg H (by linarith [le_max_right c (-1)])
      have e2 : f (1 + max c (-1)) ≤ 1 := by
        have : f (1 + max c (-1)) ≤ f 1 := H.mono (by linarith [max_le h'.le (by linarith : (-1 : ℝ) ≤ -1 + dpE)])
        rwa [H.one] at this
      have e3 : 0 ≤ f (f (1 + max c (-1)) * (1 / 2)) := Rd.nonneg H (by positivity)
      have e4 : f (f (1 + max c (-1)) * (1 / 2)) ≤ 1 := by
        have : f (f (1 + max c (-1)) * (1 / 2)) ≤ f 1 := H.mono (by linarith)
        rwa [H.one] at this
      have s1 := sq _ e3
      have s2 := sq _ (Rd.nonneg H (sub_nonneg.mpr e4))
      obtain ⟨a1, a2, a3⟩ := hsvd _ _ nv nw
      exact ⟨s1, Rd.st_mul H (F a1) (F s2), Rd.st_mul H (F a2) (F s2), Rd.st_mul H (F a3) (F s2)⟩
    · have h' : ¬ c < -1 + dpE := h
      push Not at h'
      simp only [add, mul]
      have e1 : dpE ≤ f (1 + c) := by
        have : f dpE ≤ f (1 + c) := H.mono (by linarith)
        rwa [hds] at this
      have e2 : dpE ≤ f (f (1 + c) * 2) := by
        have : f dpE ≤ f (f (1 + c) * 2) := H.mono (by linarith)
        rwa [hds] at this
      have s1 := sq _ (hdp.le.trans e2)
      have s0 : ¬ (A.sqrt (.fin (f (f (1 + c) * 2)))).eq (.fin 0) :=
        Rd.sqrt_pos_of H (n := .fin (f (f (1 + c) * 2))) (H.idem _) (hdp.trans_le e2)
      have d1 := Rd.st_div H (x := .fin 1) trivial (F s1) s0
      obtain ⟨a1, a2, a3⟩ := Rd.vec_fin H nv
      obtain ⟨b1, b2, b3⟩ := Rd.vec_fin H nw
      have x1 := Rd.st_sub H (F (Rd.st_mul H a2 b3)) (F (Rd.st_mul H a3 b2))
      have x2 := Rd.st_sub H (F (Rd.st_mul H a3 b1)) (F (Rd.st_mul H a1 b3))
      have x3 := Rd.st_sub H (F (Rd.st_mul H a1 b2)) (F (Rd.st_mul H a2 b1))
      exact ⟨Rd.st_mul H (F s1) trivial, Rd.st_mul H (F x1) (F d1), Rd.st_mul H (F x2) (F d1), Rd.st_mul H (F x3) (F d1)⟩

/-- **C96, rates.** The Euler rate mappings and their time derivatives throw or return finite numbers: no angle slips past the check for
the singularity and produces an infinity. -/
theorem C96_euler_rates {A : XArith} {f : ℝ → ℝ} (H : RoundsTo A f) (hu : NoUnderflow f) (e d : XV3) (he : StoredVec f e)
    (hd : StoredVec f d) :
    ThrowsOrStored f (A.xyzLocalToDiff e) ∧ ThrowsOrStored f (A.xyzGlobalToDiff e) ∧ ThrowsOrStored f (A.zyxLocalToDiff e) ∧
    ThrowsOrStored f (A.xyzLocalToSecondDiff d e) ∧ ThrowsOrStored f (A.xyzGlobalToSecondDiff d e) ∧
    StoredRot f .mat (A.xyzDiffToLocal e) ∧ StoredRot f .mat (A.xyzDiffToGlobal e) ∧ StoredRot f .mat (A.zyxDiffToLocal e) ∧
    StoredRot f .mat (A.xyzSecondDiffToLocal d e) ∧ StoredRot f .mat (A.xyzSecondDiffToGlobal d e) := by
  obtain ⟨e1, e2, e3⟩ := he
  obtain ⟨d1, d2, d3⟩ := hd
  have F := fun {x : XR} => Rd.stored_fin H (x := x)
  have cy := Rd.st_cos H (F e2)
  have inv1 : ∀ x : XR, StoredNum f x → ¬ x.eq (.fin 0) → StoredNum f (A.div (.fin 1) x) := fun x hx h0 =>
    Rd.st_div H trivial (F hx) h0
  have inv2 : ¬ (A.cos e.y).eq (.fin 0) → StoredNum f (A.div (.fin 1) (A.mul (A.cos e.y) (A.cos e.y))) := by
    intro h0
    refine Rd.st_div H trivial (by fins H) ?_
    obtain ⟨y, hy⟩ := Rd.fin_ex H (F cy)
    rw [hy] at h0 ⊢
    have hy0 : ¬ y = 0 := h0
    rw [show A.mul (.fin y) (.fin y) = .fin (f (y * y)) from H.rnd _]
    intro hc
    exact hy0 (mul_self_eq_zero.mp (hu _ hc))
  refine ⟨?_, ?_, ?_, ?_, ?_, ?_, ?_, ?_, ?_, ?_⟩
  · unfold XArith.xyzLocalToDiff; dsimp only; split_ifs with h
    · exact Or.inl rfl
    · have := inv1 _ cy h
      refine Or.inr ⟨_, rfl, ⟨?_, ?_, ?_⟩, ⟨?_, ?_, ?_⟩, ?_, ?_, ?_⟩ <;> dsimp only [XArith.row] <;> fins H
  · unfold XArith.xyzGlobalToDiff; dsimp only; split_ifs with h
    · exact Or.inl rfl
    · have := inv1 _ cy h
      refine Or.inr ⟨_, rfl, ⟨?_, ?_, ?_⟩, ⟨?_, ?_, ?_⟩, ?_, ?_, ?_⟩ <;> dsimp only [XArith.row] <;> fins H
  · unfold XArith.zyxLocalToDiff; dsimp only; split_ifs with h
    · exact Or.inl rfl
    · have := inv1 _ cy h
      refine Or.inr ⟨_, rfl, ⟨?_, ?_, ?_⟩, ⟨?_, ?_, ?_⟩, ?_, ?_, ?_⟩ <;> dsimp only [XArith.row] <;> fins H
  · unfold XArith.xyzLocalToSecondDiff; dsimp only; split_ifs with h
    · exact Or.inl rfl
    · have := inv1 _ cy h
      have := inv2 h
      refine Or.inr ⟨_, rfl, ⟨?_, ?_, ?_⟩, ⟨?_, ?_, ?_⟩, ?_, ?_, ?_⟩ <;> dsimp only [XArith.row] <;> fins H
  · unfold XArith.xyzGlobalToSecondDiff; dsimp only; split_ifs with h
    · exact Or.inl rfl
    · have := inv1 _ cy h
      have := inv2 h
      refine Or.inr ⟨_, rfl, ⟨?_, ?_, ?_⟩, ⟨?_, ?_, ?_⟩, ?_, ?_, ?_⟩ <;> dsimp only [XArith.row] <;> fins H
  all_goals
    refine ⟨⟨?_, ?_, ?_⟩, ⟨?_, ?_, ?_⟩, ?_, ?_, ?_⟩ <;>
      dsimp only [XArith.row, XArith.xyzDiffToLocal, XArith.xyzDiffToGlobal, XArith.zyxDiffToLocal, XArith.xyzSecondDiffToLocal,
        XArith.xyzSecondDiffToGlobal] <;> fins H

lemma Rd.st_smulM {A : XArith} {f : ℝ → ℝ} (H : RoundsTo A f) {s : XR} {m : XM3} (hs : s.IsFinite) (h : StoredRot f .mat m) :
    StoredRot f .mat (A.smulM s m) := by
  obtain ⟨⟨h1, h2, h3⟩, ⟨h4, h5, h6⟩, h7, h8, h9⟩ := h
  dsimp only [XArith.row] at h1 h2 h3 h4 h5 h6 h7 h8 h9
  refine ⟨⟨?_, ?_, ?_⟩, ⟨?_, ?_, ?_⟩, ?_, ?_, ?_⟩ <;> dsimp only [XArith.row, XArith.smulM] <;> fins H
lemma Rd.st_addM {A : XArith} {f : ℝ → ℝ} (H : RoundsTo A f) {a m : XM3} (ha : StoredRot f .mat a) (h : StoredRot f .mat m) :
    StoredRot f .mat (A.addM a m) := by
  obtain ⟨⟨h1, h2, h3⟩, ⟨h4, h5, h6⟩, h7, h8, h9⟩ := h
  obtain ⟨⟨i1, i2, i3⟩, ⟨i4, i5, i6⟩, i7, i8, i9⟩ := ha
  dsimp only [XArith.row] at h1 h2 h3 h4 h5 h6 h7 h8 h9 i1 i2 i3 i4 i5 i6 i7 i8 i9
  refine ⟨⟨?_, ?_, ?_⟩, ⟨?_, ?_, ?_⟩, ?_, ?_, ?_⟩ <;> dsimp only [XArith.row, XArith.addM] <;> fins H

/-- **C96, Jacobian and poses.** -/
theorem C96_jacobian_poses {A : XArith} {f : ℝ → ℝ} (H : RoundsTo A f) (hu : NoUnderflow f) (P : Prec) (k : Kind) (r : XRep k)
    (hr : StoredRot f k r) (p v : XV3) (hp : StoredVec f p) (hv : StoredVec f v) :
    StoredRot f .mat (A.getJacobianOfExponentialMap v) ∧ StoredVec f (A.transform P k p r v) ∧
    StoredVec f (A.inverseTransform P k p r v) ∧ StoredVec f (A.posePosition P k p r v) := by
  have F := fun {x : XR} => Rd.stored_fin H (x := x)
  have hadd : ∀ a b : XV3, StoredVec f a → StoredVec f b → StoredVec f (A.addV a b) := by
    rintro a b ⟨a1, a2, a3⟩ ⟨b1, b2, b3⟩
    exact ⟨Rd.st_add H (F a1) (F b1), Rd.st_add H (F a2) (F b2), Rd.st_add H (F a3) (F b3)⟩
  have hsub : ∀ a b : XV3, StoredVec f a → StoredVec f b → StoredVec f (A.subV a b) := by
    rintro a b ⟨a1, a2, a3⟩ ⟨b1, b2, b3⟩
    exact ⟨Rd.st_sub H (F a1) (F b1), Rd.st_sub H (F a2) (F b2), Rd.st_sub H (F a3) (F b3)⟩
  refine ⟨?_, hadd _ _ (Rd.st_rotate H P k hr (Rd.vec_fin H hv)) hp,
    Rd.st_rotate H P k (Rd.st_inverted H k hr) (Rd.vec_fin H (hsub _ _ hv hp)), hadd _ _ hp (Rd.st_rotate H P k hr (Rd.vec_fin H hv))⟩
  have hn := Rd.st_norm3 H (Rd.vec_fin H hv)
  have hI : StoredRot f .mat (XArith.identity .mat) := Rd.st_identity H .mat
  have hs : StoredRot f .mat (XArith.skew v) := by
    obtain ⟨v1, v2, v3⟩ := hv
    exact ⟨⟨Rd.st_zero H, Rd.st_neg H v3, v2⟩, ⟨v3, Rd.st_zero H, Rd.st_neg H v1⟩, Rd.st_neg H v2, v1, Rd.st_zero H⟩
  unfold XArith.getJacobianOfExponentialMap
  dsimp only
  split_ifs with h
  · exact Rd.st_addM H hI (Rd.st_smulM H trivial hs)
  · obtain ⟨n, hn'⟩ := Rd.fin_ex H (F hn)
    rw [hn'] at h hn ⊢
    have h' : ¬ n < 1 / 10000 := h
    have n0 : n ≠ 0 := by
      rintro rfl
      norm_num at h'
    have m1 : A.mul (.fin n) (.fin n) = .fin (f (n * n)) := H.rnd _
    have m2 : A.mul (.fin (f (n * n))) (.fin n) = .fin (f (f (n * n) * n)) := H.rnd _
    have q1 : f (n * n) ≠ 0 := fun hc => n0 (mul_self_eq_zero.mp (hu _ hc))
    have q2 : f (f (n * n) * n) ≠ 0 := fun hc => (mul_ne_zero q1 n0) (hu _ hc)
    rw [m1, m2]
    have t1 : StoredNum f (A.div (A.sub (.fin 1) (A.cos (.fin n))) (.fin (f (n * n)))) :=
      Rd.st_div H (F (Rd.st_sub H trivial (F (Rd.st_cos H trivial)))) trivial q1
    have t2 : StoredNum f (A.div (A.sub (.fin n) (A.sin (.fin n))) (.fin (f (f (n * n) * n)))) :=
      Rd.st_div H (F (Rd.st_sub H trivial (F (Rd.st_sin H trivial)))) trivial q2
    exact Rd.st_addM H (Rd.st_addM H hI (Rd.st_smulM H (F t1) hs)) (Rd.st_smulM H (F t2) (Rd.st_matMul H hs hs))

/-- The hypotheses can be met by values that are no rotations at all: `double` arithmetic rounding to nearest even, and a program over
variables of all six classes holding `notRotation`. -/
theorem C96_example (P : Prec) :
    let A := binaryArith 53 (roundEven 53) (roundEven_spec (by norm_num))
    let cls : ℕ → Kind := fun i => if i = 0 then .quat else if i = 1 then .mat else if i = 2 then .aa else if i = 3 then .zyx
      else if i = 4 then .xyz else .rv
    let p : List Cmd := [.mul 0 1 5, .setUnique 2, .assign 5 2, .boxPlus 1 3 ⟨1, 2, 4⟩, .inv 4 5, .disparity 0 3, .rotate 1 ⟨1, 0, 0⟩]
    (∀ i, StoredRot (roundEven 53) (cls i) ((xRun A P cls (fun i => notRotation (cls i)) p).1 i)) ∧
      ∀ o ∈ (xRun A P cls (fun i => notRotation (cls i)) p).2, StoredOut (roundEven 53) o := by
  intro A cls p
  have R := roundEven_spec (p := 53) (by norm_num)
  have H := (C96_binary (p := 53) (by norm_num) R).1
  have int : ∀ n : ℤ, |n| < 2 ^ 53 → roundEven 53 (n : ℝ) = n := fun n hn => R.fix _ ⟨n, 0, hn, by simp⟩
  have i0 := int 0 (by norm_num)
  have i1 := int 1 (by norm_num)
  have i2 := int 2 (by norm_num)
  have i3 := int 3 (by norm_num)
  have i4 := int 4 (by norm_num)
  have i4' := int (-4) (by norm_num)
  have i8 := int 8 (by norm_num)
  have i16 := int 16 (by norm_num)
  push_cast at i0 i1 i2 i3 i4 i4' i8 i16
  refine C96_programs H P cls _ p ?_ ?_ ?_
  · intro i
    cases cls i
    · exact ⟨i3, i0, i4', i0⟩
    · exact ⟨⟨i2, i0, i0⟩, ⟨i1, i4', i0⟩, i0, i0, i0⟩
    · exact ⟨i8, i0, i0, i0⟩
    · exact ⟨i0, i8, i0⟩
    · exact ⟨i1, i16, i0⟩
    · exact ⟨i1, i16, i0⟩
  · simp [p, RvFree, RvSource, cls]
  · simp only [p, List.mem_cons, List.not_mem_nil, or_false]
    rintro c (rfl | rfl | rfl | rfl | rfl | rfl | rfl) d w (h | ⟨a, h⟩) <;> cases h
    exact ⟨i1, i2, i4⟩
end Kindr
