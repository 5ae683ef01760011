import Verif.Python
import Verif.Making

/-!
# Making an enforcer in Python

The constructors bound in `pycasbin/src/py_enforcer.cpp` 27–33; those of `py_cached_enforcer.cpp` (25–54) and
`py_synced_enforcer.cpp` (28–57) are bound with the same parameters in the same order. How pybind11 chooses among
them is `choose` of Python.lean; what the C++ constructors do is `Made.make` of Making.lean.
-/

namespace Casbin
namespace Py

/-- `py::init<…>()` (py_enforcer.cpp 27–33), in the order of the file. -/
def ctorDefs : List Def :=
  [ ⟨c!"__init__", c!"Enforcer", c!"Enforcer", [], .void⟩,
    ⟨c!"__init__", c!"Enforcer", c!"Enforcer", [.str, .str], .void⟩,
    ⟨c!"__init__", c!"Enforcer", c!"Enforcer", [.str, adapterT], .void⟩,
    ⟨c!"__init__", c!"Enforcer", c!"Enforcer", [modelT, adapterT], .void⟩,
    ⟨c!"__init__", c!"Enforcer", c!"Enforcer", [modelT], .void⟩,
    ⟨c!"__init__", c!"Enforcer", c!"Enforcer", [.str], .void⟩,
    ⟨c!"__init__", c!"Enforcer", c!"Enforcer", [.str, .str, .bool], .void⟩ ]

/-- A call of a C++ constructor: without arguments (enforcer.cpp 241), with the arguments of `Source`, or with a
null pointer to a model (271, 286). -/
inductive Ctor
  | empty
  | source (s : Source)
  | nullModel (a : Option Adapter)

/-- The constructor for C++ arguments; `mo` and `ad` are the models and adapters that Python objects stand for. -/
def ctorOf (mo : Nat → Model) (ad : Nat → Adapter) : List CVal → Option Ctor
  | [] => some .empty
  | [.str p] => some (.source (.file p))
  | [.obj _ i] => some (.source (.object (mo i)))
  | [.null] => some (.nullModel none)
  | [.str p, .str q] => some (.source (.files p q))
  | [.str p, .obj _ j] => some (.source (.fileAdapter p (some (ad j))))
  | [.str p, .null] => some (.source (.fileAdapter p none))
  | [.obj _ i, .obj _ j] => some (.source (.objects (mo i) (some (ad j))))
  | [.obj _ i, .null] => some (.source (.objects (mo i) none))
  | [.null, .obj _ j] => some (.nullModel (some (ad j)))
  | [.null, .null] => some (.nullModel none)
  | [.str p, .str q, .bool b] => some (.source (.filesLog p q b))
  | _ => none

/-- `Enforcer(*args)` in Python: the constructor that is called, `none` for a `TypeError`. -/
def newEnforcer (mo : Nat → Model) (ad : Nat → Adapter) (args : List PyVal) : Option Ctor :=
  (choose ctorDefs args).bind fun x => ctorOf mo ad x.2

variable [IterOrder]

/-- What the constructor makes. `Enforcer()` makes an object without a model, here `none`; with a null pointer to a
model `m_model->PrintModel()` (enforcer.cpp 273) and `Initialize` are called through it. -/
def Ctor.run (rx : Str → Str → Outcome Str) (fs : Files) : Ctor → Outcome (Option Made)
  | .empty => .ok none
  | .source s => (Made.make rx fs s).map some
  | .nullModel _ => .ub .nullDeref

end Py
end Casbin
