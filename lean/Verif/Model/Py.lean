/-!
# Python exceptions as values

`PyErr` lists the exception classes the modelled code can raise.  Messages are not modelled.
-/

namespace Verif

/-- Exception classes raised (directly or by a primitive) in the modelled code. -/
inductive PyErr where
  | valueError
  | typeError
  | zeroDivisionError
  | indexError
  | keyError
  | attributeError
  | assertionError
  | fileNotFoundError
  | runtimeError
  /-- `msgspec.DecodeError`: a truncated cache file -/
  | decodeError
  /-- the Python code would loop further; only produced when the fuel of a modelled `while` ends -/
  | outOfFuel
  /-- the Python code would produce something the model does not represent here (IEEE `inf`/`nan`, a
  two-dimensional array, arithmetic on strings); no claim is made about such runs -/
  | unmodelled
  deriving DecidableEq, Repr

end Verif
