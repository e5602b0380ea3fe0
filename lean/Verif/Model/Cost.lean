import Verif.Model.Parser

/-!
# The recognizer with a step counter

`runC` is `run` (`Verif/Model/Peg.lean`) instrumented: it also counts the steps, one for every evaluation of a
parsing expression, every round of a repetition and every character of a literal that is compared.
`Dbml.Props.C56_same_result` proves that the result is that of `run`. The counter is a model of pest's work up to a constant
factor; pest's generated code evaluates the same expressions in the same order.
-/

namespace Dbml

/-- `repLoop` with a counter.
`/repo/src/parser/mod.rs:57-58` (pest runtime behind `DBMLParser::parse`), instrumented. -/
def repLoopC (step : Nat → Str → Res × Nat) : Nat → Nat → Str → Res × Nat
  | 0, _, _ => (.diverge, 1)
  | fuel + 1, pos, inp =>
    let s := step pos inp
    match s.1 with
    | .fail => (.ok [] inp [], s.2 + 1)
    | .diverge => (.diverge, s.2 + 1)
    | .ok [] _ _ => (.diverge, s.2 + 1)
    | .ok c r ps =>
      let t := repLoopC step fuel (pos + blen c) r
      match t.1 with
      | .ok c' r' ps' => (.ok (c ++ c') r' (ps ++ ps'), s.2 + t.2 + 1)
      | .fail => (.fail, s.2 + t.2 + 1)
      | .diverge => (.diverge, s.2 + t.2 + 1)

/-- `skipIf` with a counter.
`/repo/src/parser/mod.rs:57-58` (pest runtime behind `DBMLParser::parse`), instrumented. -/
def skipIfC (skip : Str → Res × Nat) (a : Atomicity) (inp : Str) : Res × Nat :=
  match a with
  | .nonAtomic => skip inp
  | _ => (.ok [] inp [], 0)

/-- `seqRes` with a counter.
`/repo/src/parser/mod.rs:57-58` (pest runtime behind `DBMLParser::parse`), instrumented. -/
def seqResC (skip : Str → Res × Nat) (at' : Atomicity) (pos : Nat) (ra : Res × Nat)
    (kb : Nat → Str → Res × Nat) : Res × Nat :=
  match ra.1 with
  | .fail => (.fail, ra.2 + 1)
  | .diverge => (.diverge, ra.2 + 1)
  | .ok c1 r1 p1 =>
    let s := skipIfC skip at' r1
    match s.1 with
    | .fail => (.fail, ra.2 + s.2 + 1)
    | .diverge => (.diverge, ra.2 + s.2 + 1)
    | .ok c2 r2 _ =>
      let b := kb (pos + blen c1 + blen c2) r2
      match b.1 with
      | .fail => (.fail, ra.2 + s.2 + b.2 + 1)
      | .diverge => (.diverge, ra.2 + s.2 + b.2 + 1)
      | .ok c3 r3 p3 => (.ok (c1 ++ c2 ++ c3) r3 (p1 ++ p3), ra.2 + s.2 + b.2 + 1)

/-- `run` with a counter.
`/repo/src/parser/mod.rs:57-58` (pest runtime behind `DBMLParser::parse`), instrumented. -/
def runC (skip : Str → Res × Nat) : PExpr → Atomicity → Nat → Str → Res × Nat
  | .str s, _, _, inp =>
    match stripPrefix s inp with
    | some r => (.ok s r [], s.length + 1)
    | none => (.fail, s.length + 1)
  | .insens s, _, _, inp =>
    match stripPrefixCI s inp with
    | some (m, r) => (.ok m r [], s.length + 1)
    | none => (.fail, s.length + 1)
  | .cls p, _, _, inp =>
    match inp with
    | c :: cs => if p c then (.ok [c] cs [], 1) else (.fail, 1)
    | [] => (.fail, 1)
  | .soi, _, pos, inp => if pos = 0 then (.ok [] inp [], 1) else (.fail, 1)
  | .eoi, at', pos, inp =>
    match inp with
    | [] => (.ok [] [] (if at' = .atomic then [] else [.mk .EOI ⟨pos, pos⟩ [] []]), 1)
    | _ => (.fail, 1)
  | .seq a b, at', pos, inp =>
    seqResC skip at' pos (runC skip a at' pos inp) (fun p i => runC skip b at' p i)
  | .alt a b, at', pos, inp =>
    let x := runC skip a at' pos inp
    match x.1 with
    | .fail => let y := runC skip b at' pos inp; (y.1, x.2 + y.2 + 1)
    | r => (r, x.2 + 1)
  | .opt a, at', pos, inp =>
    let x := runC skip a at' pos inp
    match x.1 with
    | .fail => (.ok [] inp [], x.2 + 1)
    | r => (r, x.2 + 1)
  | .star a, at', pos, inp =>
    let x := runC skip a at' pos inp
    match x.1 with
    | .fail => (.ok [] inp [], x.2 + 1)
    | .diverge => (.diverge, x.2 + 1)
    | .ok c r ps =>
      let t := repLoopC
          (fun p i => seqResC skip at' p (.ok [] i [], 0) (fun p' i' => runC skip a at' p' i'))
          (r.length + 1) (pos + blen c) r
      match t.1 with
      | .ok c' r' ps' => (.ok (c ++ c') r' (ps ++ ps'), x.2 + t.2 + 1)
      | .fail => (.fail, x.2 + t.2 + 1)
      | .diverge => (.diverge, x.2 + t.2 + 1)
  | .neg a, at', pos, inp =>
    let x := runC skip a at' pos inp
    match x.1 with
    | .fail => (.ok [] inp [], x.2 + 1)
    | .diverge => (.diverge, x.2 + 1)
    | .ok _ _ _ => (.fail, x.2 + 1)
  | .rule r m body, at', pos, inp =>
    let x := runC skip body (bodyAtomicity m at') pos inp
    match x.1 with
    | .fail => (.fail, x.2 + 1)
    | .diverge => (.diverge, x.2 + 1)
    | .ok c rest ps =>
      (.ok c rest (if emits m at' then [.mk r ⟨pos, pos + blen c⟩ c ps] else ps), x.2 + 1)

/-- The skipper with a counter.
`/repo/src/dbml.pest:1-6`, instrumented. -/
def G.skipC (inp : Str) : Res × Nat := runC (fun i => (.ok [] i [], 0)) G.skipExpr .atomic 0 inp

/-- `pestParse` (`Verif/Model/Parser.lean`) with a counter. -/
def pestParseC (input : Str) : Res × Nat := runC G.skipC G.schema .nonAtomic 0 input

end Dbml
