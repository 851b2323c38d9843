import Verif.Props.Run
import Verif.Props.FuzzCases

/-! # Concrete cases for whole commands -/

namespace TF

open Spec

namespace Demo

def v1 : Version := ⟨1, 0, 0, []⟩

/-- A package `p` that depends on test-fuzz, which depends on afl. -/
def metadata : Metadata :=
  { packages := [⟨c%"p 0.1", c%"p", v1⟩, ⟨c%"tf", c%"test-fuzz", v1⟩, ⟨c%"afl", c%"afl", v1⟩]
    resolve := some [⟨c%"p 0.1", [c%"tf"]⟩, ⟨c%"tf", [c%"afl"]⟩, ⟨c%"afl", []⟩] }

def exe : Exe := ⟨c%"/t/p", c%"p", ⟨some v1, some v1⟩⟩

def bytes (s : Str) : Bytes := s.map fun c => UInt8.ofNat c.toNat

def corpus (t : Str) : Path := [c%"t", c%"corpus", c%"p::" ++ t]

/-- A corpus with two inputs for target `a`. -/
def fs : FS := fun p =>
  if p = corpus c%"a" then some .dir
  else if p = corpus c%"a" ++ [c%"x"] then some (.file [1])
  else if p = corpus c%"a" ++ [c%"y"] then some (.file [2])
  else none

/-- Two targets, `a` and `b`; the harness fails for its first input and hangs for its second. -/
def sys : Sys :=
  { plan := Plan.clean
    lister := fun _ d => if d = corpus c%"a" then [c%"x", c%"y"] else []
    ctx := { env := fun _ => none, inTest := false, threadId := c%"ThreadId(1)", metadata := fun _ => some [c%"t"] }
    metadata := metadata
    terminal := false
    showEnv := some [c%"A=1"]
    ctf := v1
    aflOutput := some c%"cargo-afl 1.0.0\n"
    build := fun fs => (.done [.other, .artifact c%"p 0.1" c%"p" true (some c%"/t/p"),
      .artifact c%"p 0.1" c%"p" false (some c%"/t/q")] (some true), fs)
    listing := fun _ => some (bytes c%"a_fuzz__::entry: test\nb_fuzz__::entry: test\nother: test\n")
    command := fun _ _ fs => (some true, fs)
    harness := fun l => if l.length = 4 then .runs (fun _ => bytes c%"oops") (some 1000) (some false) true true
      else .runs (fun _ => []) (some 1001) (some false) true true
    lcovExists := some false
    numCpus := 4
    vis := fun b => b.length
    checks := true
    loop := fun _ => .exit 1 }

def start : RSt := ⟨⟨fs, 0⟩, []⟩

def opts : Opts := {}

end Demo

open Demo

/-- Option --list together with --consolidate and --replay: the targets are printed and nothing else. -/
example : (run { opts with list := true, consolidate := true, replay := some .corpus } sys start).2.acts =
    [.aflVersion, .build [c%"test", c%"--no-run", c%"--message-format=json"] true, .listTests c%"/t/p",
      .printTargets [(exe, [c%"a", c%"b"])]] := by decide +kernel

/-- Option --no-run. -/
example : (run { opts with noRun := true, resetAll := true } sys start).2.acts =
    [.aflVersion, .build [c%"afl", c%"test", c%"--no-run", c%"--target-dir", c%"/t/afl", c%"--message-format=json"] false,
      .listTests c%"/t/p"] := by decide +kernel

/-- Without either, the same options reset. -/
example : ∃ a ∈ (run { opts with resetAll := true } sys start).2.acts, Acts a :=
  ⟨.reset [(exe, [c%"a", c%"b"])], by decide +kernel, trivial⟩

/-- An invalid object. -/
example : (run { opts with coverage := some .genericArgs } sys start).1 = .err c%"`--coverage generic-args` is invalid." ∧
    (run { opts with coverage := some .genericArgs } sys start).2.acts = [] := by decide +kernel

/-- Without corpora, fuzzing fails; with --exit-code the status is 2. -/
example : processStatus (run { opts with exitCode := true } sys start).1 = some 2 := by decide +kernel
example : processStatus (run { opts with ztarget := some c%"b" } sys start).1 = some 1 := by decide +kernel

/-- With --exit-code the loop is entered for the one target that has a corpus; its outcome becomes the status. -/
example : processStatus (run { opts with exitCode := true, ztarget := some c%"a" } sys start).1 = some 1 ∧
    Act.fuzzLoop [(exe, c%"a")] 3 ∈ (run { opts with exitCode := true, ztarget := some c%"a" } sys start).2.acts := by
  decide +kernel

end TF
