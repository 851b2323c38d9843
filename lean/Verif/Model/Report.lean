import Verif.Model.Run
import Verif.Rust.Lossy

/-!
# What is printed

The text that cargo-test-fuzz/src/lib.rs:361-389 and 973-1003 write to standard output.
-/

namespace TF

/-- cargo-test-fuzz/src/lib.rs:974-980: the output of a harness, or the contents of a file. -/
def outputText (buffer : Bytes) : Str :=
  match buffer.getLast? with
  | some last => lossy buffer ++ (if last ≠ 10 then c%"\n" else [])
  | none => []

/-- cargo-test-fuzz/src/lib.rs:981-998: the result. `status`: the text of `{status:?}`. -/
def resultText (status : Str) (buffer : Bytes) : Verdict → Str
  | .raw => []
  | .timeout => c%"Timeout\n"
  | .status _ => if buffer.isEmpty then status ++ c%"\n" else []

/-- cargo-test-fuzz/src/lib.rs:973-998: the text for one stored input. -/
def reportText (status : Str) (r : Report) : Str :=
  r.name ++ c%": " ++ outputText r.buffer ++ resultText status r.buffer r.verdict

/-- What an action writes to standard output while stored inputs are gone through: cargo-test-fuzz/src/lib.rs:367 and 973-1003.
What `cargo llvm-cov` prints before and after (lib.rs:345-352, 391-409) is left out. -/
def stdoutOf (status : Report → Str) : Act → Bytes
  | .heading _ text => text ++ [10]
  | .report r => utf8Encode (reportText (status r) r)
  | _ => []

/-- What a sequence of actions writes to standard output. -/
def stdoutOfAll (status : Report → Str) (l : List Act) : Bytes := l.flatMap (stdoutOf status)

end TF
