import Verif.Model.FullDiff

/-!
# What a total time derivative is

The value of a symbolic expression, and trajectories of its variables.
-/

set_option autoImplicit false

noncomputable section
namespace Kindr.Matlab

namespace Sym

/-- The value of an expression, the variables having the values `ρ`. -/
def eval (ρ : Name → ℝ) : Sym → ℝ
  | num r => r
  | var v => ρ v
  | add a b => a.eval ρ + b.eval ρ
  | mul a b => a.eval ρ * b.eval ρ
  | neg a => -a.eval ρ
  | inv a => (a.eval ρ)⁻¹
  | sin a => Real.sin (a.eval ρ)
  | cos a => Real.cos (a.eval ρ)

/-- The variables of an expression. -/
def vars : Sym → Finset Name
  | num _ => ∅
  | var v => {v}
  | add a b => a.vars ∪ b.vars
  | mul a b => a.vars ∪ b.vars
  | neg a => a.vars
  | inv a => a.vars
  | sin a => a.vars
  | cos a => a.vars

/-- No division by zero. -/
def Defined (ρ : Name → ℝ) : Sym → Prop
  | num _ => True
  | var _ => True
  | add a b => a.Defined ρ ∧ b.Defined ρ
  | mul a b => a.Defined ρ ∧ b.Defined ρ
  | neg a => a.Defined ρ
  | inv a => a.Defined ρ ∧ a.eval ρ ≠ 0
  | sin a => a.Defined ρ
  | cos a => a.Defined ρ

end Sym

namespace Spec

/-- What is assumed of Matlab.  A name which does not occur in the text of the expressions has no influence on them: the partial derivatives
vanish wherever the expressions are defined.  `findsym` returns variables of the expressions which occur in the text. -/
structure IsToolbox {ι : Type} (T : Toolbox ι) : Prop where
  char_spec : ∀ (f : ι → Sym) (v : Name), ¬ v <:+: T.char f → ∀ i ρ, (f i).Defined ρ → ((f i).diff v).eval ρ = 0
  findsym_vars : ∀ (f : ι → Sym) (v : Name), v ∈ T.findsym f → ∃ i, v ∈ (f i).vars
  findsym_text : ∀ (f : ι → Sym) (v : Name), v ∈ T.findsym f → v <:+: T.char f
  passes_pos : 1 ≤ T.passes

/-- The names of the variables and of their first derivatives can be told apart by their beginnings: they are different, none is the
beginning of another one, and none begins with a name reserved for higher derivatives (`d2q`, `d3q`, ...). -/
structure GoodNames (xs : List TimeVar) : Prop where
  nodup : (xs.map TimeVar.q ++ xs.map TimeVar.dq).Nodup
  prefixFree : ∀ a ∈ xs.map TimeVar.q ++ xs.map TimeVar.dq, ∀ b ∈ xs.map TimeVar.q ++ xs.map TimeVar.dq, a <+: b → a = b
  reserved : ∀ a ∈ xs.map TimeVar.q ++ xs.map TimeVar.dq, ∀ x ∈ xs, ∀ i, 2 ≤ i → ¬ hname i x.q <+: a

/-- A constant parameter: not one of the time-dependent names, and not of the form `d...x` for a time-dependent `x`. -/
structure IsParameter (xs : List TimeVar) (p : Name) : Prop where
  not_q : p ∉ xs.map TimeVar.q
  not_dq : p ∉ xs.map TimeVar.dq
  not_d : ∀ x ∈ xs, ∀ t, p = 'd' :: t → ¬ x.q <:+ t

/-- The variables as functions of time: `dq`, `ddq` are the first and second derivatives of `q`, parameters are constant. -/
structure IsTrajectory (xs : List TimeVar) (x : ℝ → Name → ℝ) : Prop where
  first : ∀ v ∈ xs, ∀ t, HasDerivAt (fun s => x s v.q) (x t v.dq) t
  second : ∀ v ∈ xs, ∀ t, HasDerivAt (fun s => x s v.dq) (x t v.ddq) t
  const : ∀ p, IsParameter xs p → ∀ s t, x s p = x t p

end Spec
end Kindr.Matlab
