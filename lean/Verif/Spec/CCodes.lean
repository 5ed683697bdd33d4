import Verif.Model.CBase
/-
The error codes of c/detools.h.
-/
namespace Detools

/-- The negation of one of the error codes 1 to 27 of c/detools.h:67-93. -/
def DocumentedError (res : Int) : Prop := -27 ≤ res ∧ res ≤ -1

instance (res : Int) : Decidable (DocumentedError res) := inferInstanceAs (Decidable (_ ∧ _))

/-- The error codes of c/detools.h:67-93 by name, and what their names mean. -/
def errorTable : List (Int × String × String) :=
  [ (1, "NOT_IMPLEMENTED", "Function not implemented."), (2, "NOT_DONE", "Not done."),
    (3, "BAD_PATCH_TYPE", "Bad patch type."), (4, "BAD_COMPRESSION", "Bad compression."),
    (5, "INTERNAL_ERROR", "Internal error."), (6, "LZMA_INIT", "LZMA init."),
    (7, "LZMA_DECODE", "LZMA decode."), (8, "OUT_OF_MEMORY", "Out of memory."),
    (9, "CORRUPT_PATCH", "Corrupt patch."), (10, "IO_FAILED", "Input/output failed."),
    (11, "ALREADY_DONE", "Already done."), (12, "FILE_OPEN_FAILED", "File open failed."),
    (13, "FILE_CLOSE_FAILED", "File close failed."), (14, "FILE_READ_FAILED", "File read failed."),
    (15, "FILE_WRITE_FAILED", "File write failed."), (16, "FILE_SEEK_FAILED", "File seek failed."),
    (17, "FILE_TELL_FAILED", "File tell failed."), (18, "SHORT_HEADER", "Short header."),
    (19, "NOT_ENOUGH_PATCH_DATA", "Not enough patch data."), (20, "HEATSHRINK_SINK", "Heatshrink sink."),
    (21, "HEATSHRINK_POLL", "Heatshrink poll."), (22, "STEP_SET_FAILED", "Step set failed."),
    (23, "STEP_GET_FAILED", "Step get failed."), (24, "ALREADY_FAILED", "Already failed."),
    (25, "CORRUPT_PATCH_OVERFLOW", "Corrupt patch, overflow."), (26, "CORRUPT_PATCH_CRLE_KIND", "Corrupt patch, CRLE kind."),
    (27, "HEATSHRINK_HEADER", "Heatshrink header.") ]

end Detools
