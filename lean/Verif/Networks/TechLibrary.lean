/-!
# Model of `technology/technology_mapping_library.hpp` and the library of `technology_mapping.hpp`

A gate of the library is its number of inputs and the expression of its text, as a function of the inputs `a`, `b` and `c`. The parser of
genlib texts (lorina) and the mapper (mockturtle) are not modelled.
-/
namespace Verif.TechLibrary

/-- Gates with two inputs, in the order of technology_mapping.hpp:420-459. -/
inductive Two
  | and2 | nand2 | or2 | nor2 | xor2 | xnor2 | lt2 | gt2 | le2 | ge2
  deriving DecidableEq

/-- Gates with three inputs, in the order of technology_mapping.hpp:461-541. -/
inductive Three
  | maj3 | dot | and3 | xorAnd | orAnd | onehot | gamble | mux | andXor
  deriving DecidableEq

/-- A gate of the library. -/
structure Gate where
  arity : Nat
  fn : Bool → Bool → Bool → Bool

/-- The texts of gates with two inputs, technology_mapping_library.hpp:30-42. -/
def Two.gate : Two → Gate
  | .and2 => ⟨2, fun a b _ => a && b⟩
  | .nand2 => ⟨2, fun a b _ => !(a && b)⟩
  | .or2 => ⟨2, fun a b _ => a || b⟩
  | .nor2 => ⟨2, fun a b _ => !(a || b)⟩
  | .xor2 => ⟨2, fun a b _ => a ^^ b⟩
  | .xnor2 => ⟨2, fun a b _ => !(a ^^ b)⟩
  | .lt2 => ⟨2, fun a b _ => !a && b⟩
  | .gt2 => ⟨2, fun a b _ => a && !b⟩
  | .le2 => ⟨2, fun a b _ => !(a && !b)⟩
  | .ge2 => ⟨2, fun a b _ => !(!a && b)⟩

/-- The texts of gates with three inputs, technology_mapping_library.hpp:48-92. -/
def Three.gate : Three → Gate
  | .and3 => ⟨3, fun a b c => a && b && c⟩
  | .xorAnd => ⟨3, fun a b c => a && (b ^^ c)⟩
  | .orAnd => ⟨3, fun a b c => a && (b || c)⟩
  | .onehot => ⟨3, fun a b c => (a && !b && !c) ^^ (!a && b && !c) ^^ (!a && !b && c)⟩
  | .maj3 => ⟨3, fun a b c => a && b || a && c || b && c⟩
  | .gamble => ⟨3, fun a b c => (a && b && c) ^^ (!a && !b && !c)⟩
  | .dot => ⟨3, fun a b c => a ^^ (c || (a && b))⟩
  | .mux => ⟨3, fun a b c => (a && !c) || (b && c)⟩
  | .andXor => ⟨3, fun a b c => a ^^ (b && c)⟩

/-- The texts of what gates with three inputs become, technology_mapping_library.hpp:49-95. -/
def Three.decay : Three → List Gate
  | .and3 => [⟨2, fun a b _ => a && b⟩]
  | .xorAnd => [⟨2, fun a b _ => a ^^ b⟩, ⟨2, fun a b _ => a && b⟩, ⟨2, fun a b _ => a && !b⟩]
  | .orAnd => [⟨2, fun a b _ => a || b⟩, ⟨2, fun a b _ => a && b⟩, ⟨1, fun a _ _ => a⟩]
  | .onehot => [⟨2, fun a b _ => a ^^ b⟩, ⟨2, fun a b _ => !(a || b)⟩]
  | .maj3 => [⟨2, fun a b _ => a && b⟩, ⟨2, fun a b _ => a || b⟩]
  | .gamble => [⟨2, fun a b _ => !(a || b)⟩, ⟨2, fun a b _ => a && b⟩]
  | .dot => [⟨1, fun a _ _ => a⟩, ⟨2, fun a b _ => !a && !b⟩, ⟨2, fun a b _ => a ^^ b⟩, ⟨2, fun a b _ => !a && b⟩,
      ⟨2, fun a b _ => a && !b⟩, ⟨1, fun a _ _ => !a⟩]
  | .mux => [⟨2, fun a b _ => a && b⟩, ⟨2, fun a b _ => a || !b⟩, ⟨2, fun a b _ => a && !b⟩, ⟨2, fun a b _ => a || b⟩,
      ⟨1, fun a _ _ => a⟩]
  | .andXor => [⟨2, fun a b _ => a && b⟩, ⟨2, fun a b _ => !a && b⟩, ⟨2, fun a b _ => a ^^ b⟩]

/-- `technology_mapping_params`, technology_mapping.hpp:43-143. -/
structure Params where
  inv : Bool
  two : Two → Bool
  three : Three → Bool
  decay : Bool

/-- Constants and buffers, which are always part of the library, technology_mapping.hpp:412. -/
def always : List Gate := [⟨0, fun _ _ _ => false⟩, ⟨0, fun _ _ _ => true⟩, ⟨1, fun a _ _ => a⟩]

/-- `set_up_gates`, technology_mapping.hpp:407-550. -/
def Params.library (p : Params) : List Gate :=
  always ++ (if p.inv then [⟨1, fun a _ _ => !a⟩] else []) ++
    ([Two.and2, .nand2, .or2, .nor2, .xor2, .xnor2, .lt2, .gt2, .le2, .ge2].filter p.two).map Two.gate ++
    ([Three.maj3, .dot, .and3, .xorAnd, .orAnd, .onehot, .gamble, .mux, .andXor].filter p.three).flatMap fun g =>
      (if p.decay then [] else [g.gate]) ++ g.decay

/-- Types of networks with required gates. -/
inductive Kind
  | aig | xag | mig | other
  deriving DecidableEq

/-- `validate_required_gates`, technology_mapping.hpp:345-401: whether it does not throw. -/
def Params.validate (p : Params) : Kind → Bool
  | .aig => p.inv && p.two .and2
  | .xag => p.inv && p.two .and2 && p.two .xor2
  | .mig => p.inv && p.three .maj3
  | .other => true

end Verif.TechLibrary
