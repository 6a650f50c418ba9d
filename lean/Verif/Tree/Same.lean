import Verif.Tree.Model

/-!
# Trees can be compared

So that the kernel can evaluate examples.
-/

namespace Verif.Tree

variable {A : Type} [DecidableEq A]

mutual
def Node.same : (a b : Node A) → Decidable (a = b)
  | .elem n as ks, .elem m bs ls =>
    if h : n = m ∧ as = bs then
      match sameAll ks ls with
      | isTrue h' => isTrue (by rw [h.1, h.2, h'])
      | isFalse h' => isFalse (by simp [h'])
    else isFalse (fun e => h (by cases e; simp))
  | .text s, .text t => if h : s = t then isTrue (by rw [h]) else isFalse (by simp [h])
  | .css s, .css t => if h : s = t then isTrue (by rw [h]) else isFalse (by simp [h])
  | .comment s, .comment t => if h : s = t then isTrue (by rw [h]) else isFalse (by simp [h])
  | .pi s d, .pi t e => if h : s = t ∧ d = e then isTrue (by rw [h.1, h.2]) else isFalse (by simpa using h)
  | .elem .., .text _ | .elem .., .css _ | .elem .., .comment _ | .elem .., .pi .. => isFalse (by simp)
  | .text _, .elem .. | .text _, .css _ | .text _, .comment _ | .text _, .pi .. => isFalse (by simp)
  | .css _, .elem .. | .css _, .text _ | .css _, .comment _ | .css _, .pi .. => isFalse (by simp)
  | .comment _, .elem .. | .comment _, .text _ | .comment _, .css _ | .comment _, .pi .. => isFalse (by simp)
  | .pi .., .elem .. | .pi .., .text _ | .pi .., .css _ | .pi .., .comment _ => isFalse (by simp)
def sameAll : (a b : List (Node A)) → Decidable (a = b)
  | [], [] => isTrue rfl
  | [], _ :: _ => isFalse (by simp)
  | _ :: _, [] => isFalse (by simp)
  | a :: as, b :: bs =>
    match Node.same a b, sameAll as bs with
    | isTrue h, isTrue h' => isTrue (by rw [h, h'])
    | isFalse h, _ => isFalse (by simp [h])
    | _, isFalse h => isFalse (by simp [h])
end

instance : DecidableEq (Node A) := Node.same

end Verif.Tree
