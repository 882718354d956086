import Verif.Model.Conv
/-!
# OpenMP loops

The three loops marked `#pragma omp parallel for`: src/runtime/cpu/kernels/kernels.cpp:106-116 (convolution),
kernels.cpp:141-152 (its input gradient) and src/runtime/cpu/layers/cpuadd.cpp:21-25.

An iteration is a sequence of reads and writes of single elements. The runtime deals the iterations out to threads in
any way; a thread runs its iterations one after the other; the accesses of different threads interleave in any way.
A C++ program without data races behaves like such an interleaving, and freedom from races is proved
(`Verif.Props.Parallel`).

Simplified: the accesses inside an Eigen product are those of the textbook algorithm. The theorem about arbitrary
programs (`schedules_agree`) covers every other order, as long as it stays within the same tensors' blocks.
-/

namespace DW.Par

noncomputable section

/-- A program accessing elements named by `A`, with values in `V`: real numbers, or `float`s with whatever arithmetic they have. -/
inductive Prog (A : Type) (V : Type := ℝ) where
  | done
  | read (a : A) (k : V → Prog A V)
  | write (a : A) (v : V) (k : Prog A V)

variable {A V : Type}

/-- One program after another. -/
def Prog.andThen : Prog A V → Prog A V → Prog A V
  | .done, q => q
  | .read a k, q => .read a fun v => (k v).andThen q
  | .write a v k, q => .write a v (k.andThen q)

/-- A sequential loop. -/
def seq : List (Prog A V) → Prog A V
  | [] => .done
  | p :: ps => p.andThen (seq ps)

/-- The memory after running a program alone. -/
def run [DecidableEq A] : Prog A V → (A → V) → A → V
  | .done, m => m
  | .read a k, m => run (k (m a)) m
  | .write a v k, m => run k (Function.update m a v)

/-- Threads and the memory they share. -/
structure Config (A : Type) (T : Nat) (V : Type := ℝ) where
  mem : A → V
  thread : Fin T → Prog A V

/-- Some thread performs its next access. -/
inductive Step [DecidableEq A] {T : Nat} : Config A T V → Config A T V → Prop
  | read (c : Config A T V) (t : Fin T) (a : A) (k : V → Prog A V) : c.thread t = .read a k →
      Step c ⟨c.mem, Function.update c.thread t (k (c.mem a))⟩
  | write (c : Config A T V) (t : Fin T) (a : A) (v : V) (k : Prog A V) : c.thread t = .write a v k →
      Step c ⟨Function.update c.mem a v, Function.update c.thread t k⟩

/-- Executions with a given number of accesses. -/
inductive Steps [DecidableEq A] {T : Nat} : Nat → Config A T V → Config A T V → Prop
  | refl (c : Config A T V) : Steps 0 c c
  | tail {n : Nat} {c d e : Config A T V} : Steps n c d → Step d e → Steps (n + 1) c e

def Config.Finished {T : Nat} (c : Config A T V) : Prop := ∀ t, c.thread t = .done

/-- The start of a parallel loop whose iterations `body i` were dealt out as the lists `deal`, one per thread. -/
def start (m : A → V) (body : Nat → Prog A V) (deal : List (List Nat)) : Config A deal.length V :=
  ⟨m, fun t => seq (deal[t].map body)⟩

/-! ### The loop bodies

An element is named by the number of its tensor and its position. -/

/-- Accumulate a sum of products of elements. -/
def sumProd [Add V] [Mul V] : List (A × A) → V → (V → Prog A V) → Prog A V
  | [], s, k => k s
  | (x, y) :: r, s, k => .read x fun u => .read y fun v => sumProd r (s + u * v) k

/-- One element of `im2col` (kernels.cpp:430-441): `src` is where the image is read, if at all. -/
def im2colStep [Zero V] (ioff off : Nat) (k : Nat) : Option Nat → Prog (Nat × Nat) V
  | none => .write (4, off + k) 0 .done
  | some i => .read (0, ioff + i) fun v => .write (4, off + k) v .done

/-- Element `e` of the product (kernels.cpp:114). -/
def mulStep [Zero V] [Add V] [Mul V] (rows cols off ooff e : Nat) : Prog (Nat × Nat) V :=
  sumProd ((List.range rows).map fun r => ((1, e / cols * rows + r), (4, off + (r * cols + e % cols)))) 0
    fun s => .write (3, ooff + e) s .done

/-- Element `e` of the sum with the bias (kernels.cpp:115). -/
def biasStep [Add V] (cols ooff e : Nat) : Prog (Nat × Nat) V :=
  .read (3, ooff + e) fun s => .read (2, e / cols) fun b => .write (3, ooff + e) (s + b) .done

/-- Iteration `b` of `CPUConvolutionalForward` (kernels.cpp:107-116). Tensors: 0 input, 1 weights, 2 bias, 3 output,
4 column buffer. `reads` are the addresses `im2col` reads. -/
def convBody [Zero V] [Add V] [Mul V] (reads : List (Option Nat)) (image rows cols cOut b : Nat) : Prog (Nat × Nat) V :=
  (seq ((List.range reads.length).map fun k => im2colStep (b * image) (b * (rows * cols)) k (reads.getD k none))).andThen
    ((seq ((List.range (cOut * cols)).map (mulStep rows cols (b * (rows * cols)) (b * (cOut * cols))))).andThen
      (seq ((List.range (cOut * cols)).map (biasStep cols (b * (cOut * cols))))))

/-- Element `e` of `weights^T * grad_output` (kernels.cpp:148). -/
def gradMulStep [Zero V] [Add V] [Mul V] (rows cols cOut loc goff e : Nat) : Prog (Nat × Nat) V :=
  sumProd ((List.range cOut).map fun o => ((1, o * rows + e / cols), (0, goff + (o * cols + e % cols)))) 0
    fun s => .write (loc, e) s .done

/-- One element of `col2im` (kernels.cpp:485-497). -/
def col2imStep [Add V] (loc ioff : Nat) (k : Nat) : Option Nat → Prog (Nat × Nat) V
  | none => .done
  | some i => .read (2, ioff + i) fun u => .read (loc, k) fun v => .write (2, ioff + i) (u + v) .done

/-- Iteration `b` of `CPUConvolutionalInputGrad` (kernels.cpp:142-152). Tensors: 0 output gradient, 1 weights, 2 input
gradient; `3 + b` is the local buffer of the iteration. -/
def convGradBody [Zero V] [Add V] [Mul V] (writes : List (Option Nat)) (image rows cols cOut b : Nat) : Prog (Nat × Nat) V :=
  (seq ((List.range (rows * cols)).map (gradMulStep rows cols cOut (3 + b) (b * (cOut * cols))))).andThen
    (seq ((List.range writes.length).map fun k => col2imStep (3 + b) (b * image) k (writes.getD k none)))

/-- Iteration `i` of `CPUAdd::backward` (cpuadd.cpp:21-25). `gi0` and `gi1` may be the same tensor. -/
def addBody [Add V] (go gi0 gi1 i : Nat) : Prog (Nat × Nat) V :=
  .read (gi0, i) fun u => .read (go, i) fun v => .write (gi0, i) (u + v)
    (.read (gi1, i) fun u => .read (go, i) fun v => .write (gi1, i) (u + v) .done)

end

end DW.Par
