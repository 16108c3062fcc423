import Verif.Model.Kernel
/-!
# Model of the kernel objects of dual classifiers (DualClassifier.hpp, SMO.hpp, Perceptron.hpp, IMA.hpp)

A program is a list of operations on dual classifiers.  `DualClassifier` holds its kernel through a raw pointer, and the
implicit copy constructor copies that pointer.  The state has the kernels on the heap (`none` once deleted) and the
classifier objects (`none` once destroyed), both named by the order of their creation.  Dereferencing or deleting a
kernel that is deleted or null is undefined behaviour: the fault `badPointer`.

Simplifications: what training does after it has its kernel matrix is in Model/Smo.lean, Model/Perceptron.lean and
Model/ImaDual.lean; here `train` only records, in `log`, which object trained with which matrix.  `evaluate` is only its
use of the kernel object.  A dataset is its dimension and its feature vectors.  `SMO::head` is null outside `train`
(SMO.hpp 146), so the destructor has nothing else to free.
-/
namespace MLTK.KOwn
open MLTK.Kernel

/-- A dataset as `Kernel::compute` sees it.  Models Kernel.hpp 159-160. -/
structure KData where
  dim : Nat
  xs : List (List ℝ)

/-- Which class an object is of: `smo`; `perc` for `PerceptronDual` constructed with a kernel type,
`PerceptronFixedMarginDual` and `IMADual` (whose constructors allocate the kernel); `linear` for `PerceptronDual`
constructed without one.  Models SMO.hpp 26, Perceptron.hpp 50-78, IMA.hpp 77-88. -/
inductive Kind where
  | smo | perc | linear
  deriving DecidableEq, Repr

/-- Members of a dual classifier that concern its kernel.  Models DualClassifier.hpp 20-25, Learner.hpp 22-24. -/
structure Obj where
  kind : Kind
  samples : KData
  type : KType
  param : ℝ
  kernel : Option Nat

/-- Kernels on the heap, classifier objects, kernels the program itself allocated, and (ghost) the trainings so far. -/
structure World where
  kernels : List (Option Kern)
  objs : List (Option Obj)
  handles : List Nat
  log : List (Nat × List (List ℝ))

/-- Operations of the program. -/
inductive Op where
  | newSmo (d : KData) (t : KType) (p : ℝ)
  | newPerc (d : KData) (t : KType) (p : ℝ)
  | newLinear (d : KData)
  | copy (i : Nat)
  | setSamples (i : Nat) (d : KData)
  | setType (i : Nat) (t : KType)
  | setParam (i : Nat) (p : ℝ)
  | recompute (i : Nat)
  | train (i : Nat)
  | evaluate (i : Nat)
  | destroy (i : Nat)
  | newKernel (t : KType) (p : ℝ)
  | setKernel (i : Nat) (h : Nat)
  | useKernel (h : Nat)

/-- The state of a program that has done nothing. -/
def World.empty : World := ⟨[], [], [], []⟩

/-- `*p` for a pointer to a kernel. -/
def derefK (ks : List (Option Kern)) (p : Option Nat) : Res Kern :=
  match p with
  | none => .error .badPointer
  | some a =>
    match ks[a]? with
    | some (some k) => .ok k
    | _ => .error .badPointer

/-- `delete p` (nothing for a null pointer, undefined for a deleted kernel). -/
def deleteK (ks : List (Option Kern)) (p : Option Nat) : Res (List (Option Kern)) :=
  match p with
  | none => .ok ks
  | some a =>
    match ks[a]? with
    | some (some _) => .ok (ks.set a none)
    | _ => .error .badPointer

/-- The object `i`, if it exists and is not destroyed. -/
def getObj (w : World) (i : Nat) : Res Obj :=
  match w.objs[i]? with
  | some (some o) => .ok o
  | _ => .error .badPointer

/-- Store object `i`. -/
def putObj (w : World) (i : Nat) (o : Obj) : World := { w with objs := w.objs.set i (some o) }

/-- `new Kernel(type, param)`.  Models Kernel.hpp 338-342. -/
def newK (t : KType) (p : ℝ) : Kern := { type := t, param := p }

/-- `if (kernel) kernel->…` for a member function that changes the kernel. -/
def onKernel (w : World) (p : Option Nat) (f : Kern → Kern) : Res World :=
  match p with
  | none => .ok w
  | some a => do
    let k ← derefK w.kernels (some a)
    return { w with kernels := w.kernels.set a (some (f k)) }

/-- `SMO::train`: the old kernel is deleted, a new one of the object's type and parameter is allocated and computed.
Models SMO.hpp 108-110. -/
noncomputable def trainSmo (w : World) (i : Nat) (o : Obj) : Res World := do
  let ks ← deleteK w.kernels o.kernel
  let k ← compute (newK o.type o.param) o.samples.dim o.samples.xs none
  let w1 := putObj w i { o with kernel := some ks.length }
  return { w1 with kernels := ks ++ [some k], log := w.log ++ [(i, k.K)] }

/-- `if(!kernel) kernel = new Kernel(INNER_PRODUCT);` of `PerceptronDual::train`: heap, object and pointer after it.
Models Perceptron.hpp 411. -/
def ensureKernel (w : World) (i : Nat) (o : Obj) : World × Nat :=
  match o.kernel with
  | some a => (w, a)
  | none =>
    ({ putObj w i { o with kernel := some w.kernels.length } with kernels := w.kernels ++ [some (newK .innerProduct 0)] },
      w.kernels.length)

/-- `train` of the perceptrons and of `IMADual`: the kernel is computed unless it says it already is.
Models Perceptron.hpp 411-413, 488-489, IMA.hpp 567. -/
noncomputable def trainPerc (w : World) (i : Nat) (o : Obj) : Res World := do
  let r := ensureKernel w i o
  let k ← derefK r.1.kernels (some r.2)
  let k' ← compute k o.samples.dim o.samples.xs none
  return { r.1 with kernels := r.1.kernels.set r.2 (some k'), log := r.1.log ++ [(i, k'.K)] }

/-- The body of the destructor: `SMO` deletes its kernel, the others do nothing.  Models SMO.hpp 84-90. -/
def destructor (ks : List (Option Kern)) (o : Obj) : Res (List (Option Kern)) :=
  if o.kind = .smo then deleteK ks o.kernel else .ok ks

/-- The end of an object's life.  Models SMO.hpp 84-90. -/
def destroyObj (w : World) (i : Nat) (o : Obj) : Res World := do
  let ks ← destructor w.kernels o
  return { w with objs := w.objs.set i none, kernels := ks }

/-- One operation.  Models the constructors (SMO.hpp 75-81: no kernel yet; Perceptron.hpp 376-398, 467-478 and
IMA.hpp 525-552: the members `kernel_type`, `kernel_param` keep their defaults), the implicit copy constructor
(DualClassifier.hpp 15-25), `setSamples` (Learner.hpp 150-155), `setKernelType`, `setKernelParam`, `recomputeKernel`,
`setKernel` (DualClassifier.hpp 46-76), `train`, `evaluate` (DualClassifier.hpp 28-44) and the destructors. -/
noncomputable def step (w : World) : Op → Res World
  | .newSmo d t p => .ok { w with objs := w.objs ++ [some ⟨.smo, d, t, p, none⟩] }
  | .newPerc d t p =>
    .ok { w with objs := w.objs ++ [some ⟨.perc, d, .innerProduct, 0, some w.kernels.length⟩]
                 kernels := w.kernels ++ [some (newK t p)] }
  | .newLinear d => .ok { w with objs := w.objs ++ [some ⟨.linear, d, .innerProduct, 0, none⟩] }
  | .copy i => do
    let o ← getObj w i
    return { w with objs := w.objs ++ [some o] }
  | .setSamples i d => do
    let o ← getObj w i
    return putObj w i { o with samples := d }
  | .setType i t => do
    let o ← getObj w i
    onKernel (putObj w i { o with type := t }) o.kernel (fun k => setType k t)
  | .setParam i p => do
    let o ← getObj w i
    onKernel (putObj w i { o with param := p }) o.kernel (fun k => setParam k p)
  | .recompute i => do
    let o ← getObj w i
    onKernel w o.kernel recompute
  | .train i => do
    let o ← getObj w i
    if o.kind = .smo then trainSmo w i o else trainPerc w i o
  | .evaluate i => do
    let o ← getObj w i
    let _ ← derefK w.kernels o.kernel
    return w
  | .destroy i => do
    let o ← getObj w i
    destroyObj w i o
  | .newKernel t p =>
    .ok { w with kernels := w.kernels ++ [some (newK t p)], handles := w.handles ++ [w.kernels.length] }
  | .setKernel i h => do
    let o ← getObj w i
    let a ← vget w.handles h
    return putObj w i { o with kernel := some a }
  | .useKernel h => do
    let a ← vget w.handles h
    let _ ← derefK w.kernels (some a)
    return w

/-- A whole program. -/
noncomputable def run (ops : List Op) : Res World := ops.foldlM step World.empty

/-- `getKernelType()`.  Models DualClassifier.hpp 94. -/
def getKernelType (w : World) (i : Nat) : Res KType := do
  let o ← getObj w i
  return o.type

/-- How many kernels are allocated. -/
def live (w : World) : Nat := w.kernels.countP (·.isSome)

end MLTK.KOwn
