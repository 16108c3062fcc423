import Verif.Model.Text
/-!
# A program that stops while it writes a file
-/
namespace MLTK.Text

/-- When the program stops during `Data::write`: before the stream is opened, or after so many characters of the text have reached the file. -/
inductive CrashPoint where
  | beforeOpen
  | after (k : Nat)

/-- What the file holds after the program stopped during `Data::write`: `old` is what it held before (`none`: there was no file) and `text` what
would have been written.  `std::ofstream(path, std::ios::out)` empties the file before anything is written, and the text goes out from front
to back.  How much of it has reached the file depends on the buffer of the stream and on the system, so every beginning is possible.
Simplified: a file system that loses other parts than the end is not modelled.  Models Data.hpp:1218, 1226-1248. -/
def fileAfterCrash (old : Option (List Char)) (text : List Char) : CrashPoint → Option (List Char)
  | .beforeOpen => old
  | .after k => some (text.take k)

end MLTK.Text
