import Verif.Model.Control

/-! # The name tables of `/repo/fstrm/control.c` -/

set_option autoImplicit false

namespace Fstrm

/-- `fstrm_control_type_to_str`, control.c:30-47. The argument is the value of the enumeration,
which may be one without a name. -/
def controlTypeToStr (type : Nat) : String :=
  if type = T_ACCEPT then "FSTRM_CONTROL_ACCEPT"
  else if type = T_START then "FSTRM_CONTROL_START"
  else if type = T_STOP then "FSTRM_CONTROL_STOP"
  else if type = T_READY then "FSTRM_CONTROL_READY"
  else if type = T_FINISH then "FSTRM_CONTROL_FINISH"
  else "FSTRM_CONTROL_UNKNOWN"

/-- `fstrm_control_field_type_to_str`, control.c:49-58. -/
def controlFieldTypeToStr (fType : Nat) : String :=
  if fType = F_CONTENT_TYPE then "FSTRM_CONTROL_FIELD_CONTENT_TYPE"
  else "FSTRM_CONTROL_FIELD_UNKNOWN"

end Fstrm
