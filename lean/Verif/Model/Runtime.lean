import Verif.Model.Sha1
import Verif.Model.Dirs
import Verif.Rust.Utf8

/-!
# runtime/src/lib.rs: switches and recording
-/

namespace TF

/-- runtime/src/lib.rs:165-169 `enabled`. -/
def enabled (e : Env) (opt : Str) : Bool :=
  let key := c%"TEST_FUZZ" ++ (if opt.isEmpty then [] else c%"_") ++ opt
  match e.var key with
  | some value => value != c%"0"
  | none => false

/-- runtime/src/lib.rs:135-138. -/
def testFuzzEnabled (e : Env) : Bool := enabled e []
/-- runtime/src/lib.rs:140-143. -/
def coverageEnabled (e : Env) : Bool := enabled e c%"COVERAGE"
/-- runtime/src/lib.rs:145-148. -/
def displayEnabled (e : Env) : Bool := enabled e c%"DISPLAY"
/-- runtime/src/lib.rs:150-153. -/
def prettyPrintEnabled (e : Env) : Bool := enabled e c%"PRETTY_PRINT"
/-- runtime/src/lib.rs:155-158. -/
def replayEnabled (e : Env) : Bool := enabled e c%"REPLAY"
/-- runtime/src/lib.rs:160-163. -/
def writeEnabled (e : Env) : Bool := enabled e c%"WRITE"

/-- runtime/src/lib.rs:189-197 `write_data`. -/
def writeData (dir : Path) (data : Bytes) : IOm Unit := do
  IOm.ignore (createDirAll dir)
  writeFile (dir ++ [fileName data]) data

/-- runtime/src/lib.rs:171-175 `write_impl_generic_args`. -/
def writeImplGenericArgs (c : Ctx) (typeName : Str) (args : List Str) : IOm Unit := do
  let d ← IOm.lift (implGenericArgsDirFromArgsType c typeName)
  IOm.unwrap (writeData d (utf8Encode (joinWith c%", " args)))

/-- runtime/src/lib.rs:177-181 `write_generic_args`. -/
def writeGenericArgs (c : Ctx) (typeName : Str) (args : List Str) : IOm Unit := do
  let d ← IOm.lift (genericArgsDirFromArgsType c typeName)
  IOm.unwrap (writeData d (utf8Encode (joinWith c%", " args)))

/-- runtime/src/lib.rs:183-187 `write_args`; `data` is the result of `serde_format::serialize`. -/
def writeArgs (c : Ctx) (typeName : Str) (data : Bytes) : IOm Unit := do
  let d ← IOm.lift (corpusDirFromArgsType c typeName)
  IOm.unwrap (writeData d data)

end TF
