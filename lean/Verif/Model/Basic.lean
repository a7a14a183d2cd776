/-!
# Exceptions

Python exceptions are values.  Only the kind of exception is kept, not its message.
-/

namespace Modred

/-- Kinds of exceptions raised by the modelled functions. -/
inductive Err where
  | assertionError
  | attributeError
  | indexError
  | linAlgError
  | notImplementedError
  | osError
  | runtimeError
  | typeError
  | undefinedError
  | valueError
  | zeroDivisionError
  deriving DecidableEq, Repr

end Modred
