# Formal model of dbml-rs in Lean 4

`properties.jsonl` lists the properties, `MANIFEST.json` maps them to theorems (generated by `tools/props.py`,
`tools/manifest.py` from `tools/claims.py`), `AXIOMS.md` lists the axioms of every theorem (generated by
`tools/axioms.py`), `seeded/LOG.jsonl` records the mutation tests (run by `tools/mutate.py`).

## What is modelled

| Rust | Lean | notes |
|---|---|---|
| pest 2.7 runtime (external, not vendored) | `Verif/Model/Peg.lean` | PEG interpreter `run` with pest's atomicity, implicit skipping and token emission. A recognizer failure is the single error `PError.syntax`; the offset pest reports with it (`attempt_pos`) is modelled in `Verif/Model/ErrorPos.lean`, the rules it names as expected and the text of the error in `Verif/Model/Expected.lean`. The line and column of errors are in `Verif/Model/LineCol.lean`, their `Display` text in `Verif/Model/Render.lean`, the nesting of calls in `Verif/Model/Depth.lean`, the number of steps in `Verif/Model/Cost.lean`. The call limit (off by default) is not modelled. |
| `src/dbml.pest` | `Verif/Model/Grammar.lean` | rule by rule; the rule graph is acyclic, so a rule is an expression |
| `src/ast/*.rs` | `Verif/Model/Ast.lean` | all structs, enums, `FromStr`, `ToString`, accessors |
| `f64` parse/eq/display | `Verif/Model/F64.lean` | the non-negative fragment that can occur; parsing proved correctly rounded (C54) |
| `src/parser/{mod,err,helper}.rs` | `Verif/Model/Parser.lean`, `Result.lean` | every function |
| `src/analyzer/{mod,err,helper,indexer}.rs` | `Verif/Model/Indexer.lean`, `Analyzer.lean`, `Result.lean` | every function; the structured `Err` is kept |
| `impl Display for Err`, `InvalidForeignKeyErr` | `Verif/Model/Message.lean` | the message texts |
| `derive(Debug)` of `src/ast/*.rs` | `Verif/Model/Debug.lean` | `{:#?}` of every AST type, with `core::fmt`'s builders, string escapes and `f64`; the Unicode tables are a parameter |
| `src/lib.rs`, `src/utils/mod.rs` | `Verif/Model/Analyzer.lean` | `parse_dbml`, `get_table_refs` |
| the cost of `src/analyzer/*.rs` | `Verif/Model/CheckCost.lean` | the same functions with a step counter; its units are described in the file |

Strings are `List Char`; offsets are UTF-8 byte offsets. A Rust panic is the value `Rs.panic site`
(one site per `unreachable!`/`unwrap`/indexing in the code), non-termination is `Rs.diverge`.
`BTreeMap`/`BTreeSet` are association lists / lists up to membership.

Not modelled: memory limits, frame sizes (C61 bounds the nesting of calls), `usize` overflow (an input longer than `isize::MAX`
cannot exist), `Debug` in the one-line mode and of errors, `Clone`, `Default`.

### Fidelity check

`conformance/run.sh` executes the model on every input of `/repo/tests` and compares the AST,
printed by the model of `{:#?}` (`Model/Debug.lean`), with the recorded `/repo/tests/out/*.ron` (22 of 22 identical),
and checks that the `validator` inputs are rejected and the `checked` input is accepted. It is a test of the
model, not part of any proof.

## Trusted base

* Lean 4.33.0's kernel; axioms at most `propext`, `Classical.choice`, `Quot.sound` (per theorem: `AXIOMS.md`).
  No axioms of our own, no compiled evaluation (`decide +kernel` is kernel reduction).
* That the definitions in `Verif/Model` describe the Rust code (each cites file and lines) and that
  `Peg.lean` describes pest 2.7. `pest_derive` compiles the grammar after `pest_meta`'s optimizer has rewritten it;
  that the passes that apply to this grammar (rotation, and the search for a literal that replaces `(!"x" ~ ANY)*`)
  change neither outcomes nor error positions nor expected rules is proved, `Proofs/Optimizer.lean`. The passes
  *factorizer*, *concatenator*, *lister* and *restorer* find nothing to rewrite in this grammar.
* That the specifications in `Verif/Spec` and the theorem statements in `Verif/Props` say what the
  English properties say.

## Layout

* `Verif/Model/*` – the model.
* `Verif/Spec/*` – specifications that use neither the analyzer's nor the walker's helpers:
  * `Syntax` – declarative concrete syntax: `SchemaD text ast`, "the text denotes the AST", construct by construct,
    in terms of pieces of text with trivia between them;
  * `Spans`, `Nodes` – which nodes an AST has, who owns whom, what their spans are;
  * `Valid` – the semantic rules, one predicate each, and their conjunction `Valid`;
  * `Defects` – what each error kind means, and where it is reported;
  * `MapSpan` – applying a function to all positions of an AST (`noPos` erases them);
  * `Source` – documents as a user would describe them, their tokens and what AST they stand for; `Written` relates
    tokens to texts with arbitrary trivia between them;
  * `Float` – what it means to be the binary64 number nearest to a rational;
  * `Numeral` – what number a decimal numeral denotes;
  * `Core` – the part of a schema that the rules look at, up to names;
  * `Stages` – the stages of the analysis, their rules and their kinds of errors;
  * `Checklist` – all checks of the semantic analysis in order, each a rule of `Valid` with its error and place.
  * `Truncate` – what the last declaration of a truncated text may have been.
  * `Recode` – the text with other line ends and other letters; the AST with the same changes.
  * `Alike` – schemas that declare the same; `Rewrite` – documents that can be rewritten into each other.
  * `Print` – a printer for ASTs, from their public fields.
  * `Shape` – which ASTs are well-formed.
  * `Splice` – a text with the part at a span replaced; `Members` – texts that declare columns, indexes, values, members.
  * `EnumNames` – a schema with its enums renamed.
  * `Size` – the number of records and stored characters of an AST.
  * `Rename` – the names of an AST by role, and edits of a text at spans.
  * `Render` – the pictures an error is displayed as.
  * `Messages` – the format strings of the semantic errors' messages, copied from `err.rs`.
  * `Expected` – the rules of the grammar by name, and what it means that one is not at a place.
* `Verif/Proofs/*` – lemmas; `Verif/Props/*` – the property theorems, with non-vacuity examples beside them.
* `Verif/Conform.lean` – runs the model on files (not imported by the proofs).

## How the properties are proved

**Grammar (generic).** `run` succeeding implies a derivation in a declarative relation `Matches` (`Proofs/Walk`, `Read`);
every repetition body of the grammar consumes something (decidable check), hence no run diverges (`Term`);
runs commute with shifting positions (`Shift`, `ShiftWalk`), with relabelling them (`RelabelWalk`), and with appending white
space to the text (`SkipTail`, `Tail`, `TailWalk`).

**Soundness of parsing.** Inversion of `Matches` rule by rule gives the exact children of every pair, and the walkers are evaluated
on them (`Walkers1..5`, `Folds`): parsing yields an AST with `SchemaD text ast` (C51) or one of four described errors (C03),
never a panic (C01). All other properties of accepted texts (C06–C15, C40, C41, C45, C48, C50, C54) are derived from
`SchemaD` alone (`Nodes`, `Slices`, `Spans`).

**Completeness of parsing.** Forward evaluation of `run` on the tokens of a described document in any layout (`LexRun`,
`Tokens`, `Reading1..8`, `First`, `Loop`) gives C43, C44 and the negative part of C45.
A quoted text is followed by what its `next` says (a value that begins with `/*` is a comment if `*/` occurs later), so
printing needs `Printable` (no token contains `/*`).

**The language.** Conversely, inversion of successful runs (`SkipExact`, `Invert1..5`): every text that is accepted is a
layout of a well-formed document. Together with completeness this is C57; C58 is derived from C57 with `Printable`.

**Error positions.** `Model/ErrorPos.lean` follows the recognizer and collects the furthest offset at which a rule failed.
Induction on expressions gives that it is an offset of the text and moves with it; the loop over declarations reaches the end of
every well-formed beginning (C59).

**Cost.** `Model/Cost.lean` instruments the interpreter with a step counter; the instrumented one computes the same result, and
a degree bound is computed per expression (`Proofs/Cost`). The quadratic bound is amortised (`Proofs/Quadratic*`): a failed
alternative may have read far, so its cost is charged to the text only if the alternatives after it fail as well or leave a rest
on which the enclosing repetition stops. The matching lower bound uses texts in which every `"` is followed by an unterminated `/*`: C56.

**Analyzer.** `Valid` over the AST, and `analyze s = ok _ ↔ Valid s` (`Index`, `TableChecks`, `Columns`, `Refs`, `Analyze`):
C16–C33 are its projections, C34 is permutation invariance of `Valid`. C35 (and C49) is by case analysis of every error exit
against `Defects`. C04: the exact condition under which the only reachable panic happens. C52: the analyzer commutes with
relabelling positions (`Natural`).

| property | how |
|---|---|
| C01, C03 | inversion of `Matches` + evaluation of each walker |
| C02 | well-formedness check of the grammar, generic no-divergence theorem |
| C04, C49 | parser output invariant ⇒ each panic site of the analyzer unreachable except `args[0]`; exact characterisation |
| C05 | direct |
| C06–C09 | located-pairs invariant, carried through the walkers |
| C10–C15, C41, C48, C50 | from `SchemaD`; folds over attribute lists characterised independently ("last occurrence") |
| C16–C33 | `Valid` |
| C34 | permutation invariance of `Valid` |
| C35 | error-exit analysis against `Defects` |
| C36–C39 | from the indexer invariant |
| C40, C45 | from `SchemaD`, and forward evaluation; witnesses for the negative parts |
| C42 | shift and tail invariance of runs, walkers and analyzer |
| C43, C44 | forward evaluation |
| C46, C47 | table evaluation / list lemmas |
| C51 | soundness of parsing |
| C52 | naturality of the analyzer in positions |
| C53 | injectivity of message heads + C35 |
| C54 | rounding analysis over the rationals |
| C55 | the modelled shortest-digits algorithm meets `Spec/Numeral` (`FloatShow`, `FloatShow2`): shortest, and nearest among the shortest |
| C56 | instrumented interpreter; a crude polynomial bound by induction on the expression; a quadratic bound by amortised analysis (`Proofs/Quadratic1`-`5`: each expression of the grammar gets a cost per consumed character, per success and per failure, and an extra charged to what follows, which the next alternative or round must show it pays only once); a family of accepted texts with quadratic cost (`Quadratic6`) |
| C57 | completeness of parsing, and inversion of runs |
| C58 | from C57 |
| C59 | induction on expressions (`Proofs/ErrorPos`), and completeness of parsing for the well-formed beginning |
| C61 | depth-instrumented interpreter (`Model/Depth`), bound by induction on the expression |
| C62 | `Model/LineCol` counts as `Place` says; C35, C49, C59 for the offsets, C42 for trivia; `Proofs/Extent` (every construct an error points at has a character) for the ends |
| C63 | `Valid (core ρ s) ↔ Valid s` rule by rule for injective renamings (`Proofs/Core`), C33 for the texts |
| C64 | every error exit gives a `FirstDefect`: earlier stages and earlier declarations of the stage are in order (`Proofs/Analyze`); uniqueness of the first stage |
| C65 | invariant over the attempts `ParserState::track` keeps: each collected rule fails at the recorded place, which is the offset of C59; where the reading of declarations stops nothing is collapsed except at offset 0; the words of the message give back the list |
| C66 | `Valid` of two schemas that differ in one table (enum, ref) compared rule by rule (`Props/Evolve`); with C33 for texts |
| C67 | the analyzer "tells" the checklist: it succeeds if all checks pass, and otherwise raises the first that fails, stage by stage (`Proofs/Tells`, `Report1`–`Report3`) |
| C68 | the beginning is read from the longer text token by token as it is by itself (`Proofs/Truncate`): every token settles within three characters; reading is deterministic; with C57 |
| C69 | `recode` commutes with the layout relation `Written` token by token (`Proofs/Recode`), and with the AST of a document (`Proofs/RecodeDoc`, `Proofs/RecodeToks`); with C57 in both directions |
| C70 | `Valid` of two alike schemas compared rule by rule (`Proofs/Alike`); with C33 for texts |
| C71 | each rewriting step gives alike schemas (`Proofs/Rewrite`); C57 for the texts |
| C72 | as C66, for whole declarations and indexes (`Props/Grow`) |
| C73 | the run of the grammar's repetition placed item by item (`Proofs/Locate`), each item a layout of its tokens as for C57; with C44, C58 |
| C74 | every document has a canonical form with the same AST, whose tokens are the printed ones (`Proofs/Print`); with C57, C44 |
| C75 | well-formed ASTs are the ASTs of documents, construct by construct (`Proofs/Shape`); with C74, C57; rules do not look at positions (C63) |
| C76 | `Span::lines` gives the lines of the stretch (induction on the fuel, `Proofs/Render`); with C62 no subtraction underflows, and the text is the picture |
| C78 | every run of the grammar's repetitions places the members, with the tokens before and after each (`Proofs/Holes1`-`4`); the document with other members there has the same tokens around (`Holes5`); the end of a text between braces (`Trim`); with C44, C57, C66 |
| C79 | `Spec/EnumNames.lean` renames a schema; everything but `ColumnOk`, `SameType` and the enum rules is literally the same, these are transferred by injectivity (`Proofs/EnumNames`); with C33, C63 |
| C80 | sizes do not depend on positions (`Size1`); by C57 the AST is that of a document, and induction over documents bounds it by eight times the characters of its tokens (`Size2`); decimals by the shortness of what is shown (`FloatShow3`: what rounds to the same double differs by less than a factor of ten) |
| C81 | `Tried e a s v`: running `e` on `s`, a rule failed at the suffix `v` (`Viable1`, from `attempt`). For every construct `Viab e A t` (`Viable2`): what it consumed is consumed again before any fitting continuation, every place tried in it can be completed to a text it accepts, and `t` is such a text. Closed under sequence, option, repetition, exclusive alternatives (`Viable2-5`; side conditions on first characters computed by the kernel), shown for every rule of the grammar (`Viable4-12`; column types, where nothing is skipped, by a second set of combinators, `Viable8-10`; a type before settings by hand, since `[` may begin an array), then for the schema (`Viable13`) |
| C82 | The same induction as C81, which now also carries which rule `R` was tried (`Tried R`, collected by `expect`: `expect_tried`) and demands that the completion begins with `Spec.sample R` (`Sm`), on a new line only where nothing was read since the last blank. `firsts e` are the rules that can be tried where `e` begins; that their samples, with one of a few endings, are read by `e` is computed by the kernel (`chk`) and transported to every continuation by `keep` (`fit_of`). `Props/Fits.lean` |
| C83 | `Model/CheckCost.lean` is the analysis in a monad that counts steps; erasing the counter gives `analyze` (`analyzeC_val`, function by function). Bounds by a Hoare-style judgement `Runs x n Q` (at most `n` steps, a value satisfies `Q`): every function costs at most a constant times the size of the part it looks at times `M` (the size of the AST), with invariants for the sizes of the maps (`IxBd`, `TiBd`) and of the typed tables (`TyBd`); trees of at most `2 * M` entries are at most `L` high (`High`); a reference costs `(refW r + refA r) * M * L` (what it names, and its settings), and these add up to at most `M` over all references, written and inline. |
| C84 | The report of a checklist (`Spec/Checklist.lean`, C67) is its first failing check; `rep_core` compares the checklist of a schema with that of its core segment by segment (`rep_append'`, `rep_flatMap`, `rep_inTurn`): the same is bad, with the same error up to quoted texts; the checks of column types are compared as a whole, because two columns may have the same core. |
| C85 | On the checklist (C67): `Keeps l l'` - the verdict of `l` says that something is missing, or `l'` fails - is closed under append, flatMap and checks in turn over a longer list; every check is monotone in the declarations except those for something missing (the value of an enum: because enum names are unique in the larger schema). Transfer to texts through the core (`rep_core`). |
| C86 | `excess` computes from the grammar alone a bound on `pairs - 4 * characters` over all successes of an expression (none if a repetition could gain in every round); induction over expressions and rounds (`PairCount`); for the whole grammar it is 2, and with 3 instead of 4 the computation finds no bound |
| C87 | `Model/Debug.lean` builds a tree of lines and blocks and prints it. The printing is injective on trees whose lines have no line break and whose opening lines do not end in a comma (`render_inj`, by induction, with the rest of the text as a parameter); what each type writes is such a tree (`fine_*`) and determines the value (`tells_*`), given that strings are escaped injectively (whatever the tables), numbers are (`digits`), and doubles are (`debug_inj`: the shortest digits round to the double, in either notation, so equal texts denote equal doubles) |
| C88 | The checklist (C67) is cut into stages; the checks of a stage pass iff its rules (C64) hold (`stage_passes`: the analyzer's part for the stage both runs through the checks and has the rules as outcome). What is appended leaves the checks of earlier stages as they are and adds checks behind those of the stage itself, so the first check that fails is the same; via the core (C84) for texts that differ in places and notes, and C58 for texts put together |
| C77 | every run of the grammar lays out located tokens (`Proofs/Rename1`-`8`, construct by construct), which fit any new spellings of the names; the edited text is a layout of the respelled tokens (`Rename9`); a fresh spelling of one place shows that no two names share it (`Rename10`, `11`); with C44, C63 |
| C60 | `Valid` is kept by the edits (`Props/Editing`), with C57, C58 for the statements about texts |

## Findings about the code

Each is a theorem or a machine-checked example.

1. `parse_dbml` panics (index out of bounds) on a `varchar/char/bit/varbit` column without a length argument and with a
   string default (C04).
2. A ref through the alias of a table declared without schema is always rejected; `public.users` never finds `users` and
   vice versa (C36).
3. Leading white space and comments inside quotes are dropped; `'// hey'` is a syntax error (C40).
4. `default: nullable` is a syntax error because `null` captures the prefix (C45).
5. A bigint default of `i64::MAX` is rejected (C28).
6. Table-group items with an explicit schema are not checked (C21); duplicate keys in table-group settings are not
   checked (C22).
7. Two primary-key indexes over expressions only are accepted (C23); an expression-only unique index is rejected if any
   unique column or index exists (C26).
8. A column of an undeclared type without default is accepted (C29).
9. `<>` on single columns needs only one side to be a key, although the message says both (C31).
10. Enum types are compared without their schema in refs (C30).
11. An alias takes precedence even when the endpoint is written with a schema (C36, C39).
12. An unqualified ref when nothing is declared in `public` is reported at position 0..0 (C35, C49).
13. The keywords `Table`, `Enum`, `Project`, `TableGroup` and `as` need exactly one blank (not tab or newline) after them
    (`Props/Language`).
14. In a project, a bare-word property value followed by one blank and the next key is a syntax error
    (`Props/Language`).
15. `[]` glued to a column type is read as an array, not as empty settings; a project property `note: 'x'` is read as a note
    (`Props/Language`).
16. `Refname: a.b > c.d` is accepted as a ref named `name` (`Props/Language`).
17. Joining two accepted texts with a line break can swallow declarations (a quoted `/*` begins a comment if `*/` follows) (C58).
18. The error kinds "invalid data type" and "table group not found" are never reported (C53).
19. A mistake at the very beginning of a text (offset 0) is reported as "expected schema" only; the same mistake further
    down is answered with the list of all declarations (C65, `C65_start_of_text`).
20. A text cut off inside its last one-line ref (`Ref: b.x > a.id` from `... a.id2`) is accepted as another ref; all other
    cuts are noticed or lose whole declarations only (C68).
21. Only the last `indexes` block of a table is checked, and the order of its unique indexes matters: `a [unique] (a, b) [unique]`
    is accepted, `(a, b) [unique] a [unique]` is not (C71).
22. The displayed text of an error about a stretch that ends with a line break (columns do: their recorded range includes what follows up
    to the next token) also shows the line after it, under the number of the line before (C76, an oddity of pest).
