import Verif.Model.Parser

/-!
# How deeply the recognizer's calls are nested

`depth` follows the same control flow as `run` (`Verif/Model/Peg.lean`) and returns how deeply the evaluations of
parsing expressions are nested: in pest's generated code every expression is a closure called from the expression around it,
while a repetition (`ParserState::repeat`) is a loop, so that its rounds are not nested in each other. It is a model of
stack depth up to a constant number of frames per expression. The functions of `/repo/src/parser/mod.rs` that walk the
pairs and those of `/repo/src/analyzer` are not recursive: they are as deep as the pairs are nested (`Pair.depth`), or less.
-/

namespace Dbml

/-- The rounds of a repetition: the deepest one (see `repLoop`). -/
def depthLoop (step : Nat → Str → Res) (d : Nat → Str → Nat) : Nat → Nat → Str → Nat
  | 0, _, _ => 0
  | fuel + 1, pos, inp =>
    match step pos inp with
    | .ok (x :: xs) r _ => max (d pos inp) (depthLoop step d fuel (pos + blen (x :: xs)) r)
    | _ => d pos inp

/-- The implicit skip after a success, and then `b` (see `seqRes`).
`/repo/src/parser/mod.rs:57-58` (pest runtime behind `DBMLParser::parse`), instrumented. -/
def depthNext (skip : Str → Res) (skipD : Str → Nat) (at' : Atomicity) (pos : Nat) (ra : Res) (kb : Nat → Str → Nat) : Nat :=
  match ra with
  | .ok c1 r1 _ =>
    max (match at' with | .nonAtomic => skipD r1 | _ => 0)
      (match skipIf skip at' r1 with
      | .ok c2 r2 _ => kb (pos + blen c1 + blen c2) r2
      | _ => 0)
  | _ => 0

/-- The nesting of evaluations while running an expression.
`/repo/src/parser/mod.rs:57-58` (pest runtime behind `DBMLParser::parse`), instrumented. -/
def depth (skip : Str → Res) (skipD : Str → Nat) : PExpr → Atomicity → Nat → Str → Nat
  | .str _, _, _, _ => 1
  | .insens _, _, _, _ => 1
  | .cls _, _, _, _ => 1
  | .soi, _, _, _ => 1
  | .eoi, _, _, _ => 1
  | .seq a b, at', pos, inp =>
    1 + max (depth skip skipD a at' pos inp)
      (depthNext skip skipD at' pos (run skip a at' pos inp) fun p i => depth skip skipD b at' p i)
  | .alt a b, at', pos, inp =>
    1 + match run skip a at' pos inp with
      | .fail => max (depth skip skipD a at' pos inp) (depth skip skipD b at' pos inp)
      | _ => depth skip skipD a at' pos inp
  | .opt a, at', pos, inp => 1 + depth skip skipD a at' pos inp
  | .star a, at', pos, inp =>
    1 + match run skip a at' pos inp with
      | .ok c r _ =>
        max (depth skip skipD a at' pos inp)
          (depthLoop (fun p i => seqRes skip at' p (.ok [] i []) (fun p' i' => run skip a at' p' i'))
            (fun p i => 1 + depthNext skip skipD at' p (.ok [] i []) fun p' i' => depth skip skipD a at' p' i')
            (r.length + 1) (pos + blen c) r)
      | _ => depth skip skipD a at' pos inp
  | .neg a, at', pos, inp => 1 + depth skip skipD a at' pos inp
  | .rule _ m body, at', pos, inp => 1 + depth skip skipD body (bodyAtomicity m at') pos inp

/-- The nesting while skipping white space and comments (`hidden::skip` of pest's generated code, `G.skip`). -/
def skipDepth (inp : Str) : Nat := depth (fun i => .ok [] i []) (fun _ => 0) G.skipExpr .atomic 0 inp

/-- The nesting while recognizing a text (`DBMLParser::parse(Rule::schema, input)`, `/repo/src/parser/mod.rs:58`). -/
def parseDepth (input : Str) : Nat := depth G.skip skipDepth G.schema .nonAtomic 0 input

mutual
/-- The nesting of a pair.
`/repo/src/parser/mod.rs:57-58` (pest runtime behind `DBMLParser::parse`). -/
def Pair.depth : Pair → Nat
  | .mk _ _ _ cs => 1 + Pair.depths cs
/-- The nesting of the deepest of several pairs. -/
def Pair.depths : List Pair → Nat
  | [] => 0
  | p :: ps => max p.depth (Pair.depths ps)
end

end Dbml
