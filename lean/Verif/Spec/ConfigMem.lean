import Verif.Model.ConfigMem
import Verif.Spec.Config

/-!
# Specification: what is seen of a configuration in memory, and what users do with configurations
-/

namespace GPyOpt.Spec

/-- What is found by following the keys of a path from a value, as `view`. -/
def hview (h : CfgMem) : HVal → List String → Option (Option Atom)
  | .atom a, [] => some (some a)
  | .ref _, [] => some none
  | .atom _, _ :: _ => none
  | .ref n, k :: p => (HDict.find (h.get n) k).bind fun v => hview h v p

/-- The dictionaries that can be reached from a value. -/
inductive Reach (h : CfgMem) (v : HVal) : Nat → Prop
  | self {n : Nat} : v = .ref n → Reach h v n
  | step {m n : Nat} {k : String} : Reach h v m → (k, HVal.ref n) ∈ h.get m → Reach h v n

/-- The dictionaries that can be reached from one of several values. -/
def Known (h : CfgMem) (vs : List HVal) (n : Nat) : Prop := ∃ v ∈ vs, Reach h v n

mutual
/-- The depth of a configuration. -/
def cfgDepth : Cfg → Nat
  | .atom _ => 0
  | .dict items => itemsDepth items + 1
/-- The depth of the entries of a dictionary. -/
def itemsDepth : Items → Nat
  | .nil => 0
  | .cons _ v rest => max (cfgDepth v) (itemsDepth rest)
end

/-- A program that uses configurations: it reads configuration files, makes drivers, makes dictionaries, and gives any
content to any dictionary that it can reach from what it was given. `default` is the address of the default
configuration, and `fuel` exceeds the depth of the files; a state is the memory with the values that the program was given. -/
inductive CfgStep (fuel default : Nat) : CfgMem × List HVal → CfgMem × List HVal → Prop
  | parse (h : CfgMem) (vs : List HVal) (file : Option Cfg) (h' : CfgMem) (v : HVal) :
      (∀ new, file = some (.dict new) → itemsDepth new < fuel) →
      hParser fuel default file h = (h', .ok v) → CfgStep fuel default (h, vs) (h', v :: vs)
  | parseFails (h : CfgMem) (vs : List HVal) (file : Option Cfg) (h' : CfgMem) (e : Err) :
      (∀ new, file = some (.dict new) → itemsDepth new < fuel) →
      hParser fuel default file h = (h', .error e) → CfgStep fuel default (h, vs) (h', vs)
  | driver (h : CfgMem) (vs : List HVal) (h' : CfgMem) (v : HVal) :
      hDriverConfig fuel default h = (h', .ok v) → CfgStep fuel default (h, vs) (h', v :: vs)
  | make (h : CfgMem) (vs : List HVal) (l : HDict) : (∀ k n, (k, HVal.ref n) ∈ l → Known h vs n) →
      CfgStep fuel default (h, vs) ((h.alloc l).1, .ref (h.alloc l).2 :: vs)
  | write (h : CfgMem) (vs : List HVal) (a : Nat) (l : HDict) : Known h vs a →
      (∀ k n, (k, HVal.ref n) ∈ l → Known h vs n) → CfgStep fuel default (h, vs) (h.write a l, vs)

/-- What a program can come to from a state. -/
inductive CfgRun (fuel default : Nat) : CfgMem × List HVal → CfgMem × List HVal → Prop
  | done (s : CfgMem × List HVal) : CfgRun fuel default s s
  | next {s t u : CfgMem × List HVal} : CfgRun fuel default s t → CfgStep fuel default t u → CfgRun fuel default s u

end GPyOpt.Spec
