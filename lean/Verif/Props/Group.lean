import Verif.Lemmas.Group

/-!
# C10, C11, C12, C13, C47: the rotation group interface
-/

set_option autoImplicit false

open Classical

noncomputable section
namespace Kindr
open Spec

/-- **C10 (a).** `rotate()` computes the specified rotation. -/
theorem C10_rotate_spec (P : Prec) (k : Kind) (r : Rep k) (hv : Valid k r) (hx : ExactBranch P .mat k r) (v : V3) :
    rotate P k r v = act k r v := by
  rw [rotate_spec hv hx, act_eq]

lemma exact_mat_inverted {P : Prec} {k : Kind} {r : Rep k} (hx : ExactBranch P .mat k r) :
    ExactBranch P .mat k (inverted k r) := by
  cases k <;> first | exact trivial | skip
  simp only [ExactBranch, inverted, V3.norm_neg, neg_eq_zero] at *
  exact hx

/-- **C10 (b).** `rotate()` is linear, preserves dot products, norms and cross products (hence orientation), and is undone on
both sides by `inverseRotate()`. -/
theorem C10_rotate_isometry (P : Prec) (k : Kind) (r : Rep k) (hv : Valid k r) (hx : ExactBranch P .mat k r)
    (u v : V3) (s : ℝ) :
    rotate P k r (u + v) = rotate P k r u + rotate P k r v ∧
    rotate P k r (s • v) = s • rotate P k r v ∧
    (rotate P k r u).dot (rotate P k r v) = u.dot v ∧
    (rotate P k r v).norm = v.norm ∧
    (rotate P k r u).cross (rotate P k r v) = rotate P k r (u.cross v) ∧
    inverseRotate P k r (rotate P k r v) = v ∧
    rotate P k r (inverseRotate P k r v) = v := by
  have hs := den_isSO3 hv
  obtain ⟨hv', hd⟩ := inverted_spec hv
  have hi : ∀ w, inverseRotate P k r w = (den k r).transpose.mulVec w := fun w => by
    rw [inverseRotate, rotate_spec hv' (exact_mat_inverted hx), hd]
  simp only [rotate_spec hv hx, hi]
  refine ⟨M3.mulVec_add _ _ _, M3.mulVec_smul _ _ _, SO3.mulVec_dot hs u v, SO3.mulVec_norm hs v,
    SO3.mulVec_cross hs u v, ?_, ?_⟩
  · rw [M3.mulVec_mulVec, SO3.tr_mul hs, M3.one_mulVec]
  · rw [M3.mulVec_mulVec, hs.1, M3.one_mulVec]

/-- **C10 (c).** `rotate()` of a 3×N matrix rotates every column. -/
theorem C10_rotate_columns (P : Prec) (k : Kind) (r : Rep k) (hv : Valid k r) (hx : ExactBranch P .mat k r) (n : ℕ)
    (m : Fin n → V3) (j : Fin n) : rotateCols P k r m j = act k r (m j) :=
  C10_rotate_spec P k r hv hx (m j)

/-- **C11 (a).** Concatenation acts as successive rotation, for every pair of classes; the result is valid.  The side
conditions are void unless a rotation vector is involved. -/
theorem C11_concatenation (P : Prec) (k₁ k₂ : Kind) (a : Rep k₁) (b : Rep k₂) (ha : Valid k₁ a) (hb : Valid k₂ b)
    (ca : RvClear P k₁ (den k₁ a)) (cb : RvClear P k₂ (den k₂ b)) (cab : RvClear P k₁ (den k₁ a * den k₂ b)) (v : V3) :
    Valid k₁ (mult P k₁ k₂ a b) ∧
    act k₁ (mult P k₁ k₂ a b) v = act k₁ a (act k₂ b v) ∧
    rotate P k₁ (mult P k₁ k₂ a b) v = rotate P k₁ a (rotate P k₂ b v) := by
  obtain ⟨h1, h2⟩ := mult_spec ha hb ca cb cab
  have e1 := exact_to_nonrv (d := .mat) (by decide) ca
  have e2 := exact_to_nonrv (d := .mat) (by decide) cb
  have e3 : ExactBranch P .mat k₁ (mult P k₁ k₂ a b) :=
    exact_to_nonrv (d := .mat) (by decide) (by rw [h2]; exact cab)
  refine ⟨h1, ?_, ?_⟩
  · simp only [act_eq, h2, M3.mulVec_mulVec]
  · rw [rotate_spec h1 e3, rotate_spec ha e1, rotate_spec hb e2, h2, M3.mulVec_mulVec]

/-- **C11 (b).** Without rotation vectors there is no side condition. -/
theorem C11_concatenation_unconditional (P : Prec) (k₁ k₂ : Kind) (h₁ : k₁ ≠ .rv) (h₂ : k₂ ≠ .rv)
    (a : Rep k₁) (b : Rep k₂) (ha : Valid k₁ a) (hb : Valid k₂ b) (v : V3) :
    act k₁ (mult P k₁ k₂ a b) v = act k₁ a (act k₂ b v) :=
  (C11_concatenation P k₁ k₂ a b ha hb (fun h => absurd h h₁) (fun h => absurd h h₂) (fun h => absurd h h₁) v).2.1

/-- **C11 (c).** Associativity up to representation, for every triple of classes. -/
theorem C11_associative (P : Prec) (k₁ k₂ k₃ : Kind) (a : Rep k₁) (b : Rep k₂) (c : Rep k₃)
    (ha : Valid k₁ a) (hb : Valid k₂ b) (hc : Valid k₃ c)
    (ca : RvClear P k₁ (den k₁ a)) (cb : RvClear P k₂ (den k₂ b)) (cc : RvClear P k₃ (den k₃ c))
    (cab : RvClear P k₁ (den k₁ a * den k₂ b)) (cbc : RvClear P k₂ (den k₂ b * den k₃ c))
    (cabc : RvClear P k₁ (den k₁ a * den k₂ b * den k₃ c)) :
    SameRot (mult P k₁ k₃ (mult P k₁ k₂ a b) c) (mult P k₁ k₂ a (mult P k₂ k₃ b c)) := by
  obtain ⟨v1, d1⟩ := mult_spec ha hb ca cb cab
  obtain ⟨v2, d2⟩ := mult_spec hb hc cb cc cbc
  obtain ⟨-, d3⟩ := mult_spec (P := P) v1 hc (by rw [d1]; exact cab) cc (by rw [d1]; exact cabc)
  obtain ⟨-, d4⟩ := mult_spec (P := P) ha v2 ca (by rw [d2]; exact cbc) (by rw [d2, ← mul_assoc]; exact cabc)
  rw [sameRot_iff, d3, d4, d1, d2, mul_assoc]

/-- **C12 (a).** `inverted()` is valid and undoes the rotation on both sides; inverting twice gives the same rotation. -/
theorem C12_inverted (k : Kind) (r : Rep k) (hv : Valid k r) (v : V3) :
    Valid k (inverted k r) ∧ act k (inverted k r) (act k r v) = v ∧ act k r (act k (inverted k r) v) = v ∧
    act k (inverted k (inverted k r)) v = act k r v := by
  have hs := den_isSO3 hv
  obtain ⟨h1, h2⟩ := inverted_spec hv
  obtain ⟨-, h4⟩ := inverted_spec h1
  refine ⟨h1, ?_, ?_, ?_⟩ <;> simp only [act_eq, h2, h4, M3.mulVec_mulVec, SO3.tr_mul hs, hs.1, M3.one_mulVec,
    M3.transpose_transpose]

/-- **C12 (b).** `A * A.inverted()` and `A.inverted() * A` represent the identity rotation. -/
theorem C12_mult_inverted (P : Prec) (k : Kind) (r : Rep k) (hv : Valid k r) (hc : RvClear P k (den k r)) (v : V3) :
    act k (mult P k k r (inverted k r)) v = v ∧ act k (mult P k k (inverted k r) r) v = v := by
  have hs := den_isSO3 hv
  obtain ⟨h1, h2⟩ := inverted_spec hv
  have hc' : RvClear P k (den k (inverted k r)) := by rw [h2]; exact rvClear_transpose hc
  have p1 : den k r * den k (inverted k r) = 1 := by rw [h2, hs.1]
  have p2 : den k (inverted k r) * den k r = 1 := by rw [h2, SO3.tr_mul hs]
  constructor
  · rw [act_eq, (mult_spec (P := P) hv h1 hc hc' (by rw [p1]; exact rvClear_one P k)).2, p1, M3.one_mulVec]
  · rw [act_eq, (mult_spec (P := P) h1 hv hc' hc (by rw [p2]; exact rvClear_one P k)).2, p2, M3.one_mulVec]

/-- **C13.** Default-constructed / `setIdentity()` / `Identity()` values are valid, leave every vector unchanged, and are
neutral for concatenation on either side. -/
theorem C13_identity (P : Prec) (k : Kind) (v : V3) :
    Valid k (identity k) ∧ act k (identity k) v = v ∧ rotate P k (identity k) v = v ∧
    (∀ (k' : Kind) (r : Rep k'), Valid k' r → RvClear P k' (den k' r) → RvClear P k (den k' r) →
      act k' (mult P k' k r (identity k)) v = act k' r v ∧
      act k (mult P k k' (identity k) r) v = act k' r v) := by
  obtain ⟨h1, h2⟩ := identity_spec k
  have hc1 : RvClear P k (den k (identity k)) := by rw [h2]; exact rvClear_one P k
  refine ⟨h1, by rw [act_eq, h2, M3.one_mulVec], ?_, fun k' r hv hc hc' => ⟨?_, ?_⟩⟩
  · rw [rotate_spec h1 (exact_to_nonrv (by decide) hc1), h2, M3.one_mulVec]
  · rw [act_eq, (mult_spec (P := P) hv h1 hc hc1 (by rw [h2, mul_one]; exact hc)).2, h2, mul_one, ← act_eq]
  · rw [act_eq, (mult_spec (P := P) h1 hv hc1 hc (by rw [h2, one_mul]; exact hc')).2, h2, one_mul, ← act_eq]

/-! ## C47: histories -/

/-- One step of a history: a rotation of any class, possibly to be inverted first. -/
structure Step where
  kind : Kind
  val : Rep kind
  inv : Bool

namespace Step
/-- The factor actually used: `x` or `x.inverted()`. -/
def factor (s : Step) : Rep s.kind := if s.inv then inverted s.kind s.val else s.val
/-- What the step does to a vector according to the specification. -/
def apply (s : Step) (v : V3) : V3 := act s.kind s.factor v
/-- matrix of the step -/
def matrix (s : Step) : M3 := den s.kind s.factor
end Step

/-- `acc = acc * x₁ * x₂ * …` as a program would do it in a loop. -/
def runHistory (P : Prec) (k : Kind) (acc : Rep k) : List Step → Rep k
  | [] => acc
  | s :: l => runHistory P k (mult P k s.kind acc s.factor) l

/-- Specification: compose the individual actions. -/
def composeActs (f : V3 → V3) : List Step → V3 → V3
  | [] => f
  | s :: l => composeActs (fun v => f (s.apply v)) l

/-- For an accumulator stored as a rotation vector every intermediate product must be clear of the small-angle region;
for any other class this is void. -/
def PrefixesClear (P : Prec) (k : Kind) (m : M3) : List Step → Prop
  | [] => RvClear P k m
  | s :: l => RvClear P k m ∧ PrefixesClear P k (m * s.matrix) l

lemma prefixesClear_nonrv {P : Prec} {k : Kind} (hk : k ≠ .rv) (l : List Step) (m : M3) : PrefixesClear P k m l := by
  induction l generalizing m with
  | nil => exact fun h => absurd h hk
  | cons s l ih => exact ⟨fun h => absurd h hk, ih _⟩

lemma Step.factor_valid {s : Step} (h : Valid s.kind s.val) : Valid s.kind s.factor := by
  unfold Step.factor; split_ifs
  · exact (inverted_spec h).1
  · exact h

lemma Step.factor_clear {P : Prec} {s : Step} (h : Valid s.kind s.val)
    (hc : RvClear P s.kind (den s.kind s.val)) : RvClear P s.kind (den s.kind s.factor) := by
  unfold Step.factor; split_ifs
  · rw [(inverted_spec h).2]; exact rvClear_transpose hc
  · exact hc

/-- **C47.** A history of arbitrary length of concatenations with rotations of arbitrary classes (each possibly inverted)
yields a valid rotation that acts as the composition of the individual actions. -/
theorem C47_history (P : Prec) (k : Kind) (acc : Rep k) (l : List Step) (hacc : Valid k acc)
    (hl : ∀ s ∈ l, Valid s.kind s.val ∧ RvClear P s.kind (den s.kind s.val))
    (hp : PrefixesClear P k (den k acc) l) (v : V3) :
    Valid k (runHistory P k acc l) ∧ act k (runHistory P k acc l) v = composeActs (act k acc) l v := by
  induction l generalizing acc with
  | nil => exact ⟨hacc, rfl⟩
  | cons s l ih =>
    obtain ⟨hs1, hs2⟩ := hl s (by simp)
    obtain ⟨hp1, hp2⟩ := hp
    have hp3 : RvClear P k (den k acc * s.matrix) := by
      cases l with
      | nil => exact hp2
      | cons _ _ => exact hp2.1
    obtain ⟨v1, d1⟩ := mult_spec (P := P) hacc (Step.factor_valid hs1) hp1 (Step.factor_clear hs1 hs2) hp3
    have := ih (mult P k s.kind acc s.factor) v1 (fun t ht => hl t (by simp [ht])) (by rw [d1]; exact hp2)
    refine ⟨this.1, this.2.trans ?_⟩
    have e : act k (mult P k s.kind acc s.factor) = fun v => act k acc (s.apply v) := by
      funext w
      rw [act_eq, d1, ← M3.mulVec_mulVec, ← act_eq, ← act_eq]; rfl
    rw [e]; rfl

/-- **C47, unconditional form** when no rotation vector occurs. -/
theorem C47_history_unconditional (P : Prec) (k : Kind) (hk : k ≠ .rv) (acc : Rep k) (l : List Step)
    (hacc : Valid k acc) (hl : ∀ s ∈ l, s.kind ≠ .rv ∧ Valid s.kind s.val) (v : V3) :
    Valid k (runHistory P k acc l) ∧ act k (runHistory P k acc l) v = composeActs (act k acc) l v :=
  C47_history P k acc l hacc (fun s hs => ⟨(hl s hs).2, fun h => absurd h (hl s hs).1⟩)
    (prefixesClear_nonrv hk l _) v

/-- non-vacuity of C10–C13 and C47: a non-trivial history satisfying the hypotheses. -/
example : ∀ s ∈ ([⟨.xyz, EulXyz.mk3 1 (Real.pi / 2) 5, true⟩,
    ⟨.mat, (⟨0, -1, 0, 1, 0, 0, 0, 0, 1⟩ : M3), false⟩,
    ⟨.quat, (⟨3 / 5, 0, 4 / 5, 0⟩ : Quat), true⟩] : List Step), s.kind ≠ .rv ∧ Valid s.kind s.val := by
  intro s hs
  simp only [List.mem_cons, List.not_mem_nil, or_false] at hs
  rcases hs with rfl | rfl | rfl
  · exact ⟨by decide, trivial⟩
  · refine ⟨by decide, ?_, ?_⟩
    · ext <;> norm_num
    · norm_num [M3.det]
  · exact ⟨by decide, by norm_num [Valid]⟩
/-- a rotation vector satisfying `RvClear`: the half turn about z. -/
example : RvClear Prec.double .rv (den .rv (⟨⟨0, 0, Real.pi⟩⟩ : RotVec)) := by
  intro _
  right
  have hz : (⟨0, 0, 1⟩ : V3).normSq = 1 := by norm_num [V3.normSq, V3.dot]
  have e : (⟨⟨0, 0, Real.pi⟩⟩ : RotVec) = ⟨Real.pi • ⟨0, 0, 1⟩⟩ := by
    congr 1; ext <;> simp
  rw [den_eq, e, dmat_rv_smul _ hz, trace_rodMat _ hz, Real.cos_pi]
  have h1 := e4_le_one Prec.double
  have h2 := (e4_pos Prec.double).le
  apply max_le
  · norm_num [Prec.double]
  · nlinarith

end Kindr
