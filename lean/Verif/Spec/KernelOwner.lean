import Verif.Model.KernelOwner
/-!
# Specification: programs that use dual classifiers with care, and the kernel each training should use
-/
namespace MLTK.Spec
open MLTK.KOwn MLTK.Kernel

/-- What the program has asked of an object: its class, samples, kernel type and parameter; whether it was trained and
whether it still exists. -/
structure Want where
  kind : Kind
  samples : KData
  type : KType
  param : ℝ
  trained : Bool
  alive : Bool

/-- The objects' wants after one more operation. -/
def wantStep (ws : List Want) : Op → List Want
  | .newSmo d t p => ws ++ [⟨.smo, d, t, p, false, true⟩]
  | .newPerc d t p => ws ++ [⟨.perc, d, t, p, false, true⟩]
  | .newLinear d => ws ++ [⟨.linear, d, .innerProduct, 0, false, true⟩]
  | .copy i => ws ++ (ws[i]?).toList
  | .setSamples i d => ws.modify i (fun w => { w with samples := d })
  | .setType i t => ws.modify i (fun w => { w with type := t })
  | .setParam i p => ws.modify i (fun w => { w with param := p })
  | .train i => ws.modify i (fun w => { w with trained := true })
  | .destroy i => ws.modify i (fun w => { w with alive := false })
  | .recompute _ | .evaluate _ | .newKernel _ _ | .setKernel _ _ | .useKernel _ => ws

/-- The wants of all objects of a program, in the order of their creation. -/
def wants (ops : List Op) : List Want := ops.foldl wantStep []

/-- The kernel type is one of the three the library defines. -/
def Defined (t : KType) : Prop := t = .innerProduct ∨ t = .polynomial ∨ t = .gaussian

/-- Every sample has the dataset's dimension. -/
def RectSamples (d : KData) : Prop := ∀ x ∈ d.xs, x.length = d.dim

/-- How many kernels the program itself has allocated. -/
def ownKernels (ops : List Op) : Nat :=
  ops.countP (fun o => match o with | .newKernel _ _ => true | _ => false)

/-- How many classifiers were constructed with a kernel by the perceptron and IMA constructors. -/
def percs (ops : List Op) : Nat :=
  ops.countP (fun o => match o with | .newPerc _ _ _ => true | _ => false)

/-- How many trained SMO objects exist. -/
def trainedSmos (ops : List Op) : Nat :=
  (wants ops).countP (fun w => w.alive && w.trained && (w.kind == .smo))

/-- Object `i` exists and satisfies `P`. -/
def Existing (ws : List Want) (i : Nat) (P : Want → Prop) : Prop := ∃ w, ws[i]? = some w ∧ w.alive = true ∧ P w

/-- What a careful program may do next: it uses only objects it has not destroyed, copies an `SMO` only before training
it, asks for an answer only of an object that is trained (or has its kernel by construction), and gives its own kernels
only to classifiers other than `SMO`. -/
def Careful (before : List Op) : Op → Prop
  | .newSmo d t _ => RectSamples d ∧ Defined t
  | .newPerc d t _ => RectSamples d ∧ Defined t
  | .newLinear d => RectSamples d
  | .copy i => Existing (wants before) i (fun w => ¬ (w.kind = .smo ∧ w.trained = true))
  | .setSamples i d => Existing (wants before) i (fun _ => RectSamples d)
  | .setType i t => Existing (wants before) i (fun _ => Defined t)
  | .setParam i _ => Existing (wants before) i (fun _ => True)
  | .recompute i => Existing (wants before) i (fun _ => True)
  | .train i => Existing (wants before) i (fun _ => True)
  | .evaluate i => Existing (wants before) i (fun w => w.trained = true ∨ w.kind = .perc)
  | .destroy i => Existing (wants before) i (fun _ => True)
  | .newKernel t _ => Defined t
  | .setKernel i h => Existing (wants before) i (fun w => w.kind ≠ .smo) ∧ h < ownKernels before
  | .useKernel h => h < ownKernels before

/-- Every operation of the program is one a careful program may do. -/
def CarefulProgram (ops : List Op) : Prop := ∀ pre op post, ops = pre ++ op :: post → Careful pre op

end MLTK.Spec
