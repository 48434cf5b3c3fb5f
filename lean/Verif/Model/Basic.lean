/-
Basic vocabulary of the model: outcomes of C++ functions, error codes, coordinates.
All citations are relative to /repo/tt_npe/cpp.
-/

namespace NPE

/-- `npeErrorCode`, include/npeCommon.hpp:20-29. -/
inductive ErrCode where
  | undef
  | workloadValidationFailed
  | exceededSimCycleLimit
  | invalidConfig
  | deviceModelInitFailed
  | simEngineInitFailed
  | traceIngestFailed
  | dependencyGenFailed
  deriving DecidableEq, Repr

/-- The exceptions other than `npeException` that modelled code can raise.  The last five belong to the
Python script py/util/fabric_post_process.py. -/
inductive StdExc where
  /-- `std::out_of_range`, raised by `.at(key)` -/
  | outOfRange
  /-- `std::bad_variant_access`, raised by `std::get<T>` -/
  | badVariantAccess
  /-- `simdjson::simdjson_error`, raised when a result with an error is used as a value -/
  | simdjson
  /-- `ProcessingError` of the script -/
  | pyProcessing
  /-- `KeyError` -/
  | pyKey
  /-- `NameError` -/
  | pyName
  /-- `ZeroDivisionError` -/
  | pyZeroDivision
  /-- `TypeError` -/
  | pyType
  /-- `IndexError` -/
  | pyIndex
  /-- `AttributeError` -/
  | pyAttribute
  /-- `AssertionError` -/
  | pyAssertion
  /-- `std::runtime_error` -/
  | runtimeError
  /-- `pybind11::cast_error` -/
  | castError
  /-- `nlohmann::json::type_error` -/
  | jsonType
  deriving DecidableEq, Repr

/-- Outcome of a C++ function call.  Undefined behaviour and non-termination are outcomes of
their own; nothing is totalised away. -/
inductive Out (α : Type) where
  /-- normal return -/
  | ok (a : α)
  /-- an `npeException` with its code (a failing `TT_ASSERT` throws code UNDEF,
  include/npeAssert.hpp) -/
  | exc (c : ErrCode)
  /-- a C++ standard exception -/
  | std (e : StdExc)
  /-- `std::exit(1)` -/
  | exit
  /-- undefined behaviour -/
  | ub
  /-- the loop does not terminate -/
  | diverge
  deriving DecidableEq, Repr

namespace Out

/-- Sequencing: any outcome other than a normal return propagates. -/
def bind {α β : Type} (x : Out α) (f : α → Out β) : Out β :=
  match x with
  | ok a => f a
  | exc c => exc c
  | std e => std e
  | exit => exit
  | ub => ub
  | diverge => diverge

instance : Monad Out where
  pure := ok
  bind := bind

@[simp] theorem bind_ok {α β : Type} (a : α) (f : α → Out β) : (ok a >>= f) = f a := rfl
@[simp] theorem bind_exc {α β : Type} (c) (f : α → Out β) : ((exc c : Out α) >>= f) = exc c := rfl
@[simp] theorem bind_std {α β : Type} (c) (f : α → Out β) : ((std c : Out α) >>= f) = std c := rfl
@[simp] theorem bind_exit {α β : Type} (f : α → Out β) : ((exit : Out α) >>= f) = exit := rfl
@[simp] theorem bind_ub {α β : Type} (f : α → Out β) : ((ub : Out α) >>= f) = ub := rfl
@[simp] theorem bind_diverge {α β : Type} (f : α → Out β) :
    ((diverge : Out α) >>= f) = diverge := rfl
@[simp] theorem pure_eq {α : Type} (a : α) : (pure a : Out α) = ok a := rfl

/-- A normal return. -/
def isOk {α : Type} : Out α → Bool
  | ok _ => true
  | _ => false

/-- `TT_ASSERT(c)`, include/npeAssert.hpp: throws `npeException(UNDEF)` when `c` is false.
(Environment variable TT_ASSERT_ABORT, which turns this into an abort, is not modelled.) -/
def assert (c : Bool) : Out Unit := if c then ok () else exc .undef

@[simp] theorem assert_true : assert true = ok () := rfl
@[simp] theorem assert_false : assert false = exc .undef := rfl

theorem bind_eq_ok {α β : Type} {x : Out α} {f : α → Out β} {b : β} :
    (x >>= f) = ok b ↔ ∃ a, x = ok a ∧ f a = ok b := by
  cases x <;> simp

theorem assert_eq_ok {c : Bool} {u : Unit} : assert c = ok u ↔ c = true := by
  cases c <;> simp [assert]

/-- Run `f` over a list left to right, threading a state; stops at the first outcome that is
not a normal return. -/
def foldlM {α σ : Type} (f : σ → α → Out σ) : σ → List α → Out σ
  | s, [] => ok s
  | s, a :: l => f s a >>= fun s' => foldlM f s' l

@[simp] theorem foldlM_nil {α σ : Type} (f : σ → α → Out σ) (s : σ) :
    foldlM f s [] = ok s := rfl
@[simp] theorem foldlM_cons {α σ : Type} (f : σ → α → Out σ) (s : σ) (a : α) (l : List α) :
    foldlM f s (a :: l) = (f s a >>= fun s' => foldlM f s' l) := rfl

/-- Apply `f` to every element left to right; stops at the first abnormal outcome. -/
def mapM {α β : Type} (f : α → Out β) : List α → Out (List β)
  | [] => ok []
  | a :: l => f a >>= fun b => mapM f l >>= fun bs => ok (b :: bs)

@[simp] theorem mapM_nil {α β : Type} (f : α → Out β) : mapM f [] = ok [] := rfl
@[simp] theorem mapM_cons {α β : Type} (f : α → Out β) (a : α) (l : List α) :
    mapM f (a :: l) = (f a >>= fun b => mapM f l >>= fun bs => ok (b :: bs)) := rfl

end Out

/-- `nocType`, include/npeCommon.hpp:18. -/
inductive Noc where
  | noc0
  | noc1
  deriving DecidableEq, Repr

/-- `CoreType`, include/npeCommon.hpp:31-36. -/
inductive CoreType where
  | undef
  | worker
  | dram
  | eth
  deriving DecidableEq, Repr

/-- `MESH_DEVICE`, include/npeCommon.hpp:16. -/
def MESH_DEVICE : Int := -1

/-- Conversion to a 16-bit signed integer (modular, as defined since C++20 and by all targeted
compilers). -/
def toI16 (n : Int) : Int :=
  let m := n % 65536
  if m < 32768 then m else m - 65536

/-- Conversion to a 32-bit unsigned integer. -/
def toU32 (n : Int) : Nat := (n % 4294967296).toNat

/-- `Coord`, include/npeUtil.hpp:162-170.  The fields are 16-bit in C++; values are kept as
integers here and the conversion `toI16` is explicit where a wider value is stored. -/
structure Coord where
  dev : Int
  row : Int
  col : Int
  deriving DecidableEq, Repr

/-- `Coord()` default constructor, include/npeUtil.hpp:163. -/
def Coord.default : Coord := ⟨-1, -1, -1⟩

/-- `MulticastCoordSet::CoordGrid`, include/npeUtil.hpp:174-185 (`start_coord`, `end_coord`). -/
structure CoordGrid where
  lo : Coord
  hi : Coord
  deriving DecidableEq, Repr

/-- `NocDestination = std::variant<Coord, MulticastCoordSet>`, include/npeUtil.hpp:302-304. -/
inductive Dest where
  | unicast (c : Coord)
  | mcast (grids : List CoordGrid)
  deriving DecidableEq, Repr

/-- `getDeviceIDsFromNocDestination`, include/npeUtil.hpp:306-311, with
`MulticastCoordSet::getDeviceIDs`, 211-220. -/
def Dest.deviceIDs : Dest → List Int
  | .unicast c => [c.dev]
  | .mcast gs => gs.map (·.lo.dev)

end NPE
