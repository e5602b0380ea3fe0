import Verif.Model.Grammar

/-!
# Where a syntax error is reported

`/repo/src/parser/mod.rs:57-58` returns pest's own error when the recognizer fails
(`DBMLParser::parse(Rule::schema, input)?`). pest 2.7 puts it at `attempt_pos`: the furthest byte offset at which
some named rule was tried, in a non-atomic or compound-atomic context, and failed (`ParserState::rule` and
`ParserState::track` in `pest/src/parser_state.rs`; `pest::state` builds the error from `attempt_pos`).

`attempt` follows the same control flow as `run` and collects that maximum; `none` is "no rule has failed".
Only the position is collected here; the rules are in `Model/Expected.lean`. Nothing is collected under `!`, because the
operands of `!` in `dbml.pest` contain no named rule; nothing is collected while skipping, because `WHITESPACE` and
`COMMENT` run in `Atomic` mode.
-/

namespace Dbml

/-- The further one of two attempts.
`/repo/src/parser/mod.rs:57-58` (pest runtime behind `DBMLParser::parse`). -/
def further : Option Nat → Option Nat → Option Nat
  | none, b => b
  | a, none => a
  | some a, some b => some (max a b)

/-- The attempts of a repetition: those of each step, as long as the steps succeed (see `repLoop`).
`/repo/src/parser/mod.rs:57-58` (pest runtime behind `DBMLParser::parse`). -/
def attemptLoop (step : Nat → Str → Res) (att : Nat → Str → Option Nat) : Nat → Nat → Str → Option Nat
  | 0, _, _ => none
  | fuel + 1, pos, inp =>
    match step pos inp with
    | .ok (x :: xs) r _ => further (att pos inp) (attemptLoop step att fuel (pos + blen (x :: xs)) r)
    | _ => att pos inp

/-- The attempts of `b` after the implicit skip that follows a success (see `seqRes`).
`/repo/src/parser/mod.rs:57-58` (pest runtime behind `DBMLParser::parse`). -/
def attemptNext (skip : Str → Res) (at' : Atomicity) (pos : Nat) (ra : Res) (kb : Nat → Str → Option Nat) : Option Nat :=
  match ra with
  | .ok c1 r1 _ =>
    match skipIf skip at' r1 with
    | .ok c2 r2 _ => kb (pos + blen c1 + blen c2) r2
    | _ => none
  | _ => none

/-- The furthest offset at which a rule failed while running the expression (`ParserState::track`).
`/repo/src/parser/mod.rs:57-58` (pest runtime behind `DBMLParser::parse`). -/
def attempt (skip : Str → Res) : PExpr → Atomicity → Nat → Str → Option Nat
  | .str _, _, _, _ => none
  | .insens _, _, _, _ => none
  | .cls _, _, _, _ => none
  | .soi, _, _, _ => none
  | .eoi, at', pos, inp =>
    match inp with
    | [] => none
    | _ => if at' = .atomic then none else some pos
  | .seq a b, at', pos, inp =>
    further (attempt skip a at' pos inp)
      (attemptNext skip at' pos (run skip a at' pos inp) fun p i => attempt skip b at' p i)
  | .alt a b, at', pos, inp =>
    match run skip a at' pos inp with
    | .fail => further (attempt skip a at' pos inp) (attempt skip b at' pos inp)
    | _ => attempt skip a at' pos inp
  | .opt a, at', pos, inp => attempt skip a at' pos inp
  | .star a, at', pos, inp =>
    match run skip a at' pos inp with
    | .ok c r _ =>
      further (attempt skip a at' pos inp)
        (attemptLoop (fun p i => seqRes skip at' p (.ok [] i []) (fun p' i' => run skip a at' p' i'))
          (fun p i => attemptNext skip at' p (.ok [] i []) fun p' i' => attempt skip a at' p' i')
          (r.length + 1) (pos + blen c) r)
    | _ => attempt skip a at' pos inp
  | .neg _, _, _, _ => none
  | .rule _ m body, at', pos, inp =>
    match run skip body (bodyAtomicity m at') pos inp with
    | .fail => further (attempt skip body (bodyAtomicity m at') pos inp) (if emits m at' then some pos else none)
    | _ => attempt skip body (bodyAtomicity m at') pos inp

/-- The byte offset in the error of a rejected text (`attempt_pos` starts at 0).
`/repo/src/parser/mod.rs:57-58` (pest runtime behind `DBMLParser::parse`). -/
def syntaxErrorPos (input : Str) : Nat := (attempt G.skip G.schema .nonAtomic 0 input).getD 0

end Dbml
