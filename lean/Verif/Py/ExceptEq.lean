import Verif.Py.Basic

/-! Equality of results can be decided. -/

namespace RSE

deriving instance DecidableEq for Except

end RSE
