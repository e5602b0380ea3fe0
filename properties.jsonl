{"id": "C01", "title": "parse_dbml_unchecked never panics", "statement": "For every input text, parse_dbml_unchecked returns Ok or Err; none of its unreachable!() branches is ever executed.", "quantifier": "every input string", "why_tests_cant": "the space of input strings is infinite; the unreachable!() branches rest on grammar shape, not on sampled inputs", "anchors": ["src/parser/mod.rs:parse", "src/parser/mod.rs:parse_ref_decl", "src/parser/mod.rs:parse_note_decl", "src/parser/mod.rs:parse_decl_ident", "src/parser/mod.rs:parse_ref_ident", "src/parser/mod.rs:parse_value", "src/parser/mod.rs:parse_ident", "src/dbml.pest"]}
{"id": "C02", "title": "Parsing always terminates", "statement": "For every input text, recognising it with the grammar terminates: no repetition can loop without consuming input, including the implicit whitespace/comment skipping.", "quantifier": "every input string", "why_tests_cant": "a test can only observe that sampled inputs terminate", "anchors": ["src/dbml.pest", "src/parser/mod.rs:DBMLParser"]}
{"id": "C03", "title": "Internal-mismatch errors never surface", "statement": "For every input text, an error returned by parse_dbml_unchecked is either pest's own syntax error, an integer literal out of range, an unknown referential action, or an unsupported index type; the 'unexpected rule' error of the tree walker (throw_rules), the 'invalid relation symbol' error and the 'incompatible with boolean value' error never occur.", "quantifier": "every input string", "why_tests_cant": "negative claim over all inputs", "anchors": ["src/parser/mod.rs:throw_rules uses", "src/parser/err.rs:throw_rules", "src/parser/err.rs:throw_msg"]}
{"id": "C04", "title": "parse_dbml panic characterisation", "statement": "parse_dbml panics on an input exactly when the text parses, all checks before column typing pass, and the first offending column in document order is one of type bit/char/varbit/varchar written without a length argument whose default is a quoted string (out-of-bounds args[0]). In particular it never panics on schemas without such a column. The blanket claim 'parse_dbml never panics' is false.", "quantifier": "every input string", "why_tests_cant": "requires ruling out every other panic site (span unwrap, missing default, non-raw type) on all inputs", "anchors": ["src/analyzer/mod.rs:analyze", "src/analyzer/err.rs:throw_err", "src/lib.rs:parse_dbml"]}
{"id": "C05", "title": "parse_dbml returns the unchecked AST", "statement": "parse_dbml(input) = Ok(ast) implies parse_dbml_unchecked(input) = Ok(ast) for the very same ast (validation does not rewrite it), and if parse_dbml_unchecked fails, parse_dbml fails with the same error.", "quantifier": "every input string", "why_tests_cant": "equality of two functions on all inputs", "anchors": ["src/lib.rs:parse_dbml", "src/analyzer/mod.rs:analyze"]}
{"id": "C06", "title": "Every AST span is a valid range of the input", "statement": "Every span_range in the returned AST satisfies start <= end <= input.len() and both ends are char boundaries.", "quantifier": "every input string that parses, every AST node", "why_tests_cant": "all inputs, including multi-byte text", "anchors": ["src/ast/*.rs:span_range", "src/parser/helper.rs:s2r", "src/parser/mod.rs"]}
{"id": "C07", "title": "raw fields are the source text", "statement": "For every identifier, literal and column type in the returned AST, its raw field equals the slice of the input at its span_range.", "quantifier": "every input string that parses, every such node", "why_tests_cant": "all inputs", "anchors": ["src/ast/unit.rs:Ident", "src/ast/unit.rs:Literal", "src/ast/table.rs:ColumnType", "src/parser/mod.rs"]}
{"id": "C08", "title": "Top-level blocks are in source order and disjoint", "statement": "blocks lists the top-level declarations in source order with pairwise disjoint, increasing spans, inside the schema's span, which is 0..input.len().", "quantifier": "every input string that parses", "why_tests_cant": "all inputs", "anchors": ["src/parser/mod.rs:parse_schema", "src/ast/schema.rs:SchemaBlock"]}
{"id": "C09", "title": "Child spans lie inside parent spans", "statement": "Spans of columns, settings, attributes, notes, indexes, enum values, group items and ref endpoints lie inside the span of the block that owns them.", "quantifier": "every input string that parses, every parent/child pair", "why_tests_cant": "all inputs", "anchors": ["src/parser/mod.rs"]}
{"id": "C10", "title": "Parsed relations are always defined", "statement": "Every ref (block, short or inline) in a parsed AST has a relation that is one of '<', '>', '-', '<>' as written, never Undef, its endpoints are as written left and right of the symbol, and each endpoint lists at least one column.", "quantifier": "every input string that parses, every ref", "why_tests_cant": "the Undef placeholder is used to decide which side an endpoint goes to", "anchors": ["src/parser/mod.rs:parse_ref_stmt", "src/parser/mod.rs:parse_ref_inline", "src/ast/refs.rs:Relation"]}
{"id": "C11", "title": "Column type is always raw after parsing", "statement": "Every column of a parsed AST has type_name Raw(name) with a non-empty name; Undef and resolved types never appear in what parse_dbml or parse_dbml_unchecked return.", "quantifier": "every input string that parses, every column", "why_tests_cant": "all inputs", "anchors": ["src/parser/mod.rs:parse_col_type", "src/ast/table.rs:ColumnTypeName"]}
{"id": "C12", "title": "Integer literals are exact or rejected", "statement": "An integer literal yields its exact mathematical value and lies in 0..=i64::MAX; array sizes are exact and lie in 0..=u32::MAX; larger literals are errors, never wrap-around or panic.", "quantifier": "every digit sequence", "why_tests_cant": "unbounded literals", "anchors": ["src/parser/mod.rs:parse_value", "src/parser/mod.rs:parse_col_type"]}
{"id": "C13", "title": "Column setting flags reflect the attributes", "statement": "In a parsed column, is_pk holds iff an attribute named 'pk' or 'primary key' is present, is_unique iff 'unique', is_incremental iff 'increment'; nullable is decided by the last of 'null'/'not null'; default and note are those of the last such attribute; all attributes and inline refs are kept in source order.", "quantifier": "every parsed column settings list", "why_tests_cant": "any number and order of attributes", "anchors": ["src/parser/mod.rs:parse_col_settings"]}
{"id": "C14", "title": "Index setting flags reflect the attributes", "statement": "In a parsed index definition, is_pk iff an attribute 'pk' is present, is_unique iff 'unique'; type is that of the last 'type' attribute, name and note of the last such attribute; attributes are kept in order.", "quantifier": "every parsed index settings list", "why_tests_cant": "any number and order of attributes", "anchors": ["src/parser/mod.rs:parse_indexes_settings"]}
{"id": "C15", "title": "Ref setting actions reflect the attributes", "statement": "on_update/on_delete of a parsed ref are the action named by the last 'update'/'delete' attribute when that is a bare word (and none otherwise); the accepted words are exactly the five documented actions; action names round-trip through to_string/from_str.", "quantifier": "every parsed ref settings list", "why_tests_cant": "any number and order of attributes", "anchors": ["src/parser/mod.rs:parse_rel_settings", "src/ast/refs.rs:ReferentialAction"]}
{"id": "C16", "title": "Exactly one project block", "statement": "parse_dbml accepts only texts with exactly one Project block, whose property keys are pairwise distinct.", "quantifier": "every input string", "why_tests_cant": "all inputs", "anchors": ["src/analyzer/mod.rs:analyze", "src/analyzer/helper.rs:check_prop_duplicate_keys"]}
{"id": "C17", "title": "Table names are unique per schema", "statement": "If parse_dbml accepts, no two tables have the same name in the same schema, where an omitted schema means 'public'.", "quantifier": "every accepted input, every pair of tables", "why_tests_cant": "any number of tables", "anchors": ["src/analyzer/indexer.rs:index_table"]}
{"id": "C18", "title": "Column names are unique per table", "statement": "If parse_dbml accepts, column names are pairwise distinct within each table.", "quantifier": "every accepted input", "why_tests_cant": "any number of columns", "anchors": ["src/analyzer/indexer.rs:index_table"]}
{"id": "C19", "title": "Table aliases are unique", "statement": "If parse_dbml accepts, table aliases are pairwise distinct.", "quantifier": "every accepted input", "why_tests_cant": "any number of tables", "anchors": ["src/analyzer/indexer.rs:index_table"]}
{"id": "C20", "title": "Enum names and values are unique", "statement": "If parse_dbml accepts, no two enums share schema (default 'public') and name, and values are pairwise distinct within each enum.", "quantifier": "every accepted input", "why_tests_cant": "any number of enums", "anchors": ["src/analyzer/indexer.rs:index_enums"]}
{"id": "C21", "title": "Table groups are well-formed", "statement": "If parse_dbml accepts, table group names are pairwise distinct; each unqualified item names an alias or a table of schema 'public'; and no group lists the same resolved table twice. Schema-qualified items are not checked to exist (the stronger claim is false).", "quantifier": "every accepted input", "why_tests_cant": "any number of groups/items", "anchors": ["src/analyzer/indexer.rs:index_table_groups"]}
{"id": "C22", "title": "Setting keys are unique where checked", "statement": "If parse_dbml accepts, attribute keys are pairwise distinct in the settings of every table, column, enum value, index definition and ref block. (Settings of table groups are not checked: the stronger claim is false.)", "quantifier": "every accepted input, every settings list", "why_tests_cant": "any number of attributes", "anchors": ["src/analyzer/helper.rs:check_attr_duplicate_keys"]}
{"id": "C23", "title": "At most one primary key per table", "statement": "If parse_dbml accepts, each table has at most one primary-key column, not both a primary-key column and a primary-key index, and at most one primary-key index that names a column. (Two primary-key indexes made only of expressions are accepted: the stronger claim is false.)", "quantifier": "every accepted input, every table", "why_tests_cant": "any number of columns and indexes", "anchors": ["src/analyzer/mod.rs:analyze"]}
{"id": "C24", "title": "Primary-key columns are sane", "statement": "If parse_dbml accepts, a primary-key column is not declared 'null', is not an array, and no column carries both 'null' and 'not null'.", "quantifier": "every accepted input, every column", "why_tests_cant": "all inputs", "anchors": ["src/analyzer/mod.rs:analyze"]}
{"id": "C25", "title": "Index definitions are sane", "statement": "If parse_dbml accepts, every index definition is non-empty, names only columns of its table, and has at most one of pk, unique, type.", "quantifier": "every accepted input, every index definition", "why_tests_cant": "all inputs", "anchors": ["src/analyzer/mod.rs:analyze"]}
{"id": "C26", "title": "No redundant unique or duplicate index", "statement": "If parse_dbml accepts, no unique index covers a subset of an earlier unique key's columns, and no index repeats an earlier one with the same columns and type (an index without settings repeats any earlier one with the same columns).", "quantifier": "every accepted input, every pair of definitions", "why_tests_cant": "any number of definitions", "anchors": ["src/analyzer/mod.rs:analyze"]}
{"id": "C27", "title": "Type arguments are validated", "statement": "If parse_dbml accepts, a column of a built-in type with arguments has exactly the arity of the type (1 for char/varchar/bit/varbit/time/timestamp[tz]/timetz, 2 for decimal, none otherwise) and all arguments are integers.", "quantifier": "every accepted input, every column", "why_tests_cant": "all inputs", "anchors": ["src/analyzer/mod.rs:analyze"]}
{"id": "C28", "title": "Default values fit the column", "statement": "If parse_dbml accepts, a default of a column is consistent: string length fits char/bit (exact) and varchar/varbit (at most), integers fit smallint/int/bigint, booleans only on bool, null only on columns declared null.", "quantifier": "every accepted input, every column with a default", "why_tests_cant": "all inputs", "anchors": ["src/analyzer/mod.rs:analyze"]}
{"id": "C29", "title": "Enum defaults are enum values", "statement": "If parse_dbml accepts, a column with a default whose type is not built in names an existing enum (schema default 'public') that has the default as a value. Columns without default may name an undeclared type (the stronger claim is false).", "quantifier": "every accepted input, every such column", "why_tests_cant": "all inputs", "anchors": ["src/analyzer/mod.rs:analyze", "src/analyzer/indexer.rs:lookup_enum_values"]}
{"id": "C30", "title": "Refs resolve and agree in type", "statement": "If parse_dbml accepts, both endpoints of every ref, after alias resolution, name an existing table and existing columns, have the same number of columns, and corresponding columns have equal resolved type name, arguments and array dimensions.", "quantifier": "every accepted input, every ref (block or inline)", "why_tests_cant": "all inputs", "anchors": ["src/analyzer/indexer.rs:validate_ref_type", "src/analyzer/indexer.rs:lookup_table_fields"]}
{"id": "C31", "title": "Referenced side is a key", "statement": "If parse_dbml accepts: '<' requires the left side, '>' the right side, '-' at least one side to be a primary/unique key (for composite refs: a matching pk/unique index); '<>' requires at least one side for single columns, and both sides for composites.", "quantifier": "every accepted input, every ref", "why_tests_cant": "all inputs", "anchors": ["src/analyzer/indexer.rs:validate_ref_type"]}
{"id": "C32", "title": "No two refs occupy the same foreign key", "statement": "If parse_dbml accepts, no two distinct refs have the same foreign-key side (for '<' and '>'), and no two '-' (or '<>') refs link the same pair of endpoints.", "quantifier": "every accepted input, every pair of refs", "why_tests_cant": "any number of refs", "anchors": ["src/analyzer/indexer.rs:occupy_same_column", "src/analyzer/mod.rs:analyze"]}
{"id": "C33", "title": "Acceptance is exactly validity", "statement": "parse_dbml accepts a text iff it parses and its AST satisfies the declarative validity predicate that is the conjunction of the rules C16-C32 in their exact form.", "quantifier": "every input string", "why_tests_cant": "both directions over all inputs (no valid schema is rejected, no invalid one accepted)", "anchors": ["src/analyzer/mod.rs:analyze", "src/analyzer/indexer.rs"]}
{"id": "C34", "title": "Acceptance does not depend on block order", "statement": "For every AST, permuting its top-level blocks does not change whether analysis accepts it.", "quantifier": "every AST and every permutation of its blocks", "why_tests_cant": "all permutations", "anchors": ["src/analyzer/mod.rs:analyze"]}
{"id": "C35", "title": "Error kinds are truthful", "statement": "When analysis reports a given error kind, the AST really has the corresponding defect, and the reported span belongs to the offending element.", "quantifier": "every AST, every error", "why_tests_cant": "all inputs", "anchors": ["src/analyzer/mod.rs:analyze", "src/analyzer/indexer.rs", "src/analyzer/helper.rs"]}
{"id": "C36", "title": "Refs through an alias of an unqualified table are rejected", "statement": "An alias always resolves to an explicit schema ('public' when omitted) while tables are looked up by the schema as written, so a ref that uses the alias of a table declared without schema is never accepted (alias support for such tables is broken); likewise 'public.t' never finds a table declared as 't', and 't' never finds one declared as 'public.t'.", "quantifier": "every input with such a ref", "why_tests_cant": "all inputs", "anchors": ["src/analyzer/indexer.rs:resolve_ref_alias", "src/analyzer/indexer.rs:validate_ref_type"]}
{"id": "C37", "title": "get_table_refs partitions the refs", "statement": "get_table_refs returns exactly the refs touching the table: ref_self those with both ends on it, ref_to those with only the left end, ref_by those with only the right end, each in order and without loss or duplication. In an accepted schema each ref is listed for exactly the tables its two ends are on, so that over all tables it is counted once at each end.", "quantifier": "every table identifier and every analyzed index", "why_tests_cant": "any number of refs", "anchors": ["src/utils/mod.rs:get_table_refs"]}
{"id": "C38", "title": "Indexed refs are all refs in order", "statement": "After successful analysis, indexed_refs is the list of Ref blocks in document order followed by inline refs in table and column order, each inline ref having its own column as left endpoint.", "quantifier": "every accepted AST", "why_tests_cant": "any number of refs", "anchors": ["src/analyzer/mod.rs:analyze", "src/analyzer/indexer.rs:from_inline"]}
{"id": "C39", "title": "The index knows exactly the declared tables, enums and aliases", "statement": "After successful analysis, contains_table(s, n) holds iff a table n is declared in schema s (default 'public'); contains_enum likewise; resolve_alias(a) is the (schema, name) of the table declared with that alias. lookup_enum_values and lookup_table_fields answer exactly: whether the schema, the enum or table, and each value or column exist, and the error of the latter names the first thing missing.", "quantifier": "every accepted AST, every name", "why_tests_cant": "all names", "anchors": ["src/analyzer/indexer.rs:contains_table", "src/analyzer/indexer.rs:contains_enum", "src/analyzer/indexer.rs:resolve_alias", "src/analyzer/indexer.rs:lookup_enum_values", "src/analyzer/indexer.rs:lookup_table_fields"]}
{"id": "C40", "title": "String literals: exact content", "statement": "A quoted string, identifier or expression yields exactly the characters between its delimiters whenever these do not begin with whitespace or a comment opener; otherwise leading whitespace/comments inside the quotes are dropped (the stronger claim 'always exactly the characters between the delimiters' is false).", "quantifier": "every quoted literal content", "why_tests_cant": "all contents", "anchors": ["src/dbml.pest:single_quoted_string", "src/dbml.pest:double_quoted_string", "src/dbml.pest:triple_quoted_string", "src/dbml.pest:backquoted_quoted_string"]}
{"id": "C41", "title": "Unquoted identifiers", "statement": "An unquoted identifier in the AST matches [A-Za-z][A-Za-z0-9_]* and its to_string equals its raw text; a quoted one contains no double quote in to_string and its raw text is a double quote, skippable text, to_string, and a double quote.", "quantifier": "every input string that parses, every identifier", "why_tests_cant": "all inputs", "anchors": ["src/parser/mod.rs:parse_ident", "src/dbml.pest:ident"]}
{"id": "C42", "title": "Leading and trailing trivia are irrelevant", "statement": "Prepending whitespace/comments to a text, or appending whitespace, does not change whether it parses, and changes the AST or the error only by shifting spans (leading) or by letting spans that reach the end of the text reach into the appended white space (trailing). The same holds for the verdict of parse_dbml.", "quantifier": "every input and every trivia string", "why_tests_cant": "all inputs", "anchors": ["src/dbml.pest:WHITESPACE", "src/dbml.pest:COMMENT", "src/dbml.pest:schema"]}
{"id": "C43", "title": "Keywords are case-insensitive", "statement": "Changing the ASCII case of the keywords Project, Table, Enum, Ref, TableGroup, Note, Indexes and as in a well-formed document changes neither whether it parses nor the AST, up to positions and the recorded source text.", "quantifier": "every well-formed document, every re-casing of its keywords, every layout", "why_tests_cant": "all inputs", "anchors": ["src/dbml.pest"]}
{"id": "C44", "title": "Printing then parsing is the identity", "statement": "For every schema description built from the documented constructs, parsing its canonical textual rendering - and any other text made of the same tokens, with any white space and comments before, between and after them - succeeds and yields an AST equal to it up to spans.", "quantifier": "every schema description, every layout", "why_tests_cant": "infinite family; completeness of the grammar", "anchors": ["src/dbml.pest", "src/parser/mod.rs"]}
{"id": "C45", "title": "Boolean-like prefixes capture values", "statement": "A setting value starting with true/false/null is read as that literal even when it is a prefix of a longer word, so an attribute such as 'default: nullable' is a syntax error; whole words true, false and null denote the corresponding values.", "quantifier": "every word with such a prefix", "why_tests_cant": "all words", "anchors": ["src/dbml.pest:boolean_value", "src/dbml.pest:value"]}
{"id": "C46", "title": "Built-in type names are exactly the documented ones", "statement": "ColumnTypeName::from_str accepts exactly the listed spellings, each mapping to one type, never yields Undef, Raw or Enum, and synonyms (e.g. int/int4/integer) coincide.", "quantifier": "every string", "why_tests_cant": "infinite domain of strings", "anchors": ["src/ast/table.rs:ColumnTypeName::from_str"]}
{"id": "C47", "title": "Schema accessors partition the blocks", "statement": "projects(), tables(), table_groups(), refs() and enums() return exactly the blocks of their kind in document order; every block is returned by exactly one accessor or is a note.", "quantifier": "every AST", "why_tests_cant": "any number of blocks", "anchors": ["src/ast/schema.rs:SchemaBlock"]}
{"id": "C48", "title": "Project metadata", "statement": "database_type of a parsed project is set by the last string-valued 'database_type' property: PostgreSQL for exactly that text, Unknown(text) otherwise, none if there is none; properties are kept in order and note is the last note.", "quantifier": "every parsed project", "why_tests_cant": "any number of properties", "anchors": ["src/parser/mod.rs:parse_project_decl", "src/ast/project.rs"]}
{"id": "C49", "title": "Analyzer error spans never crash", "statement": "For every parsed AST, every span handed to error construction during analysis is a valid span of the input.", "quantifier": "every input string", "why_tests_cant": "the unwrap in throw_err on all paths", "anchors": ["src/analyzer/err.rs:throw_err"]}
{"id": "C50", "title": "Qualified type names", "statement": "A column type written schema.name (or quoted forms) has type_name Raw(\"schema.name\"), arguments and array sizes in source order, independent of the spelling of built-ins: a schema-qualified built-in name is never treated as built in.", "quantifier": "every parsed column type", "why_tests_cant": "all inputs", "anchors": ["src/parser/mod.rs:parse_col_type", "src/parser/mod.rs:build_type_name_with_schema"]}
{"id": "C51", "title": "The AST is what the text denotes", "statement": "Whenever parsing succeeds, the AST is related to the text by the declarative concrete syntax of DBML (Verif/Spec/Syntax.lean): every block, setting, literal and name of the text appears in the AST exactly once, in order, with the value its spelling denotes, and the AST contains nothing else; only white space and comments are dropped.", "quantifier": "every input string that parses", "why_tests_cant": "all inputs, all constructs at once", "anchors": ["src/dbml.pest", "src/parser/mod.rs:parse_schema"]}
{"id": "C52", "title": "Semantic checks ignore positions", "statement": "Texts whose ASTs agree up to spans get the same verdict from parse_dbml: both accepted, or both rejected with the same error, or both panicking at the same place. In particular the verdict on a document does not depend on its layout, and leading trivia only moves error positions (errors about the number of projects stay at the whole text).", "quantifier": "every pair of texts with ASTs equal up to positions", "why_tests_cant": "all inputs, all layouts", "anchors": ["src/analyzer/mod.rs:analyze", "src/analyzer/indexer.rs", "src/analyzer/helper.rs"]}
{"id": "C53", "title": "Error messages identify the error", "statement": "The message of an error of parse_dbml tells what kind of error it is: errors with the same message are of the same kind, and equal unless the message quotes names or texts. Two kinds the library declares (invalid data type, table group not found) are never reported.", "quantifier": "every pair of inputs that are rejected", "why_tests_cant": "all inputs, all texts quoted in messages", "anchors": ["src/analyzer/err.rs:Err", "src/analyzer/err.rs:InvalidForeignKeyErr", "src/parser/mod.rs:throw_msg"]}
{"id": "C54", "title": "Decimal literals denote the nearest double", "statement": "In every accepted text a literal written digits '.' digits has as its value the IEEE-754 double nearest to the number written (ties to even, infinity beyond the range), only such literals have a double as value, and two spellings of one number have the same value.", "quantifier": "every input string that parses, every literal", "why_tests_cant": "infinitely many literals of unbounded length", "anchors": ["src/parser/mod.rs:parse_value", "src/dbml.pest:decimal"]}
{"id": "C55", "title": "Values shown as text", "statement": "Value::to_string (used when a setting is taken as text and in messages) shows words, strings, expressions and colours as they are, integers as numerals without superfluous zeros, and decimals as a decimal number that rounds to the same double, has as few significant digits as possible and, of the numbers with that many digits, is one nearest to the double; in an accepted text the shown number of a literal denotes the same value as the literal as written.", "quantifier": "every value; every literal of every input that parses", "why_tests_cant": "infinitely many values", "anchors": ["src/ast/unit.rs:Value::to_string"]}
{"id": "C56", "title": "Parsing does not blow up", "statement": "The recognizer takes at most quadratically many steps in the length of the text, whether the text is accepted or not: no input makes it backtrack exponentially, or re-read nested parts. The degree is exact: there are arbitrarily long accepted texts on which it takes quadratically many steps.", "quantifier": "every input string", "why_tests_cant": "all inputs of all lengths; worst cases are adversarial", "anchors": ["src/dbml.pest", "src/parser/mod.rs:parse"]}
{"id": "C57", "title": "The language, exactly", "statement": "A text is accepted by parse_dbml_unchecked if and only if it is a layout (white space and comments before, between and after the tokens) of the tokens of a well-formed document as described construct by construct in Verif/Spec/Source.lean; its AST is then, up to positions, the one the document stands for; everything else is rejected with an error. parse_dbml accepts exactly those whose AST satisfies the semantic rules. A text without '/*' can be rewritten to one token per line without changing its AST.", "quantifier": "every input string", "why_tests_cant": "all inputs, accepted or not", "anchors": ["src/dbml.pest", "src/parser/mod.rs:parse", "src/analyzer/mod.rs:analyze"]}
{"id": "C58", "title": "Files can be joined and cut", "statement": "Joining two accepted texts with a line break gives an accepted text whose AST is, up to positions, the declarations of the first followed by those of the second, provided the first contains no '/*' or the second no '*/' (without this it is false). Every accepted text can be cut between any two consecutive declarations into two accepted texts.", "quantifier": "every pair of accepted texts; every accepted text and every cut point", "why_tests_cant": "all inputs", "anchors": ["src/dbml.pest", "src/parser/mod.rs:parse_schema"]}
{"id": "C59", "title": "Where syntax errors are reported", "statement": "A syntax error is reported at an offset inside the text, on a character boundary (so building the error cannot panic). If a text is accepted but is rejected once more text (beginning with a letter) is added after a line break, the error is reported in the added text, not in the accepted part - unless a comment could begin in the first and end in the second. Blanks and comments in front of a rejected text move the reported offset by exactly their length.", "quantifier": "every rejected text; every accepted text and every continuation; every leading trivia", "why_tests_cant": "all inputs", "anchors": ["src/dbml.pest", "src/parser/mod.rs:parse"]}
{"id": "C60", "title": "Editing an accepted schema", "statement": "Refs, table groups and top-level notes can always be dropped from an accepted schema, and so can any table whose name and alias no remaining ref or group uses, and any enum that is not the type of a remaining column with a default value: what remains is accepted. Declarations of the first kind can be cut out of the text. Top-level notes never influence the verdict. Two accepted schemas that share no table, alias, enum or group name, and no alias of which is used as a table name in the refs or groups of the other, are accepted together (with one of the projects); without the last condition this is false.", "quantifier": "every accepted text, every selection of declarations; every pair of accepted texts", "why_tests_cant": "all inputs, all selections", "anchors": ["src/analyzer/mod.rs:analyze", "src/analyzer/indexer.rs"]}
{"id": "C61", "title": "Recursion is bounded", "statement": "However long a text is and whatever brackets it nests, the calls of the recognizer are nested at most 70 expressions deep and the pairs it gives at most 12 deep: parsing cannot exhaust the stack.", "quantifier": "every input string, accepted or not", "why_tests_cant": "all inputs of all lengths", "anchors": ["src/dbml.pest", "src/parser/mod.rs:parse"]}
{"id": "C62", "title": "Line and column of errors", "statement": "Every error of parse_dbml has a line and a column: one plus the number of line breaks before the place of the error, and one plus the number of characters since the last of them. Line and column determine the offset. Lines of blanks and comments in front of a text move its errors down by their number and leave the columns alone, except for errors without a place of their own (about the number of projects, or a schema that is not written). Every error but a syntax error has a range of the text, empty only for errors without a place; its end is reported just after its last character on the line of that character, so no error ends before it begins.", "quantifier": "every rejected text; every text and offset; every leading trivia", "why_tests_cant": "all inputs", "anchors": ["src/parser/mod.rs:parse", "src/parser/err.rs:throw_msg", "src/analyzer/err.rs:throw_err"]}
{"id": "C63", "title": "Acceptance depends on the core of a schema, not on its names", "statement": "Whether parse_dbml accepts depends only on the core of the schema: which tables, columns, enums, refs, groups and indexes there are, setting keys, key flags, types and defaults. Notes, comments, quoting, names of projects, refs and indexes, referential actions, values of other settings and contents of index expressions do not matter; and tables (with their aliases), columns, schemas of tables and table groups can be renamed consistently, 'public' keeping its name.", "quantifier": "every pair of texts whose cores agree up to renaming", "why_tests_cant": "all inputs, all renamings", "anchors": ["src/analyzer/mod.rs:analyze", "src/analyzer/indexer.rs"]}
{"id": "C64", "title": "Errors come in stages", "statement": "parse_dbml checks the project, then table names and settings, then enums, then table groups, then keys and indexes, then column types and defaults, then references. The error reported for a text with several mistakes is one of the kinds of the first stage that is not in order, however many mistakes the later stages have; conversely an error guarantees that all stages before its own are in order.", "quantifier": "every text that parses and is not valid", "why_tests_cant": "all combinations of mistakes", "anchors": ["src/analyzer/mod.rs:analyze", "src/analyzer/indexer.rs", "src/analyzer/helper.rs"]}
{"id": "C65", "title": "What a syntax error says was expected", "statement": "A syntax error names at least one thing it expected; the things are named once each, in a fixed order, and none of them is there: 'expected EOI' is only said where text is left, 'expected ident' never where a letter stands, 'expected relation' never at a relation sign, 'expected integer' never at a digit. After text that is accepted by itself, a misspelt declaration refused where it begins is answered with the end of input and all six declarations. The text of the error determines the list, and tells syntax errors from all others.", "quantifier": "every rejected text", "why_tests_cant": "the list is collected by pest's backtracking bookkeeping over all alternatives tried", "anchors": ["src/dbml.pest", "src/parser/mod.rs:parse", "src/parser/err.rs"]}
{"id": "C66", "title": "Changing columns, enum values and refs of an accepted schema", "statement": "A column without inline refs can be added to a table of an accepted schema, anywhere among its columns, exactly if its name is new, its type, default and settings are in order, the table does not get a second primary key, and, if it is unique, no unique index of the table consists of expressions only. A column can be dropped exactly if no index of its table and no remaining ref names it. The order of columns does not matter. The values of an enum can be replaced exactly if the new ones are distinct and include every default of the columns of that type. A ref can be added exactly if it is valid by itself and competes with no other.", "quantifier": "every accepted schema and every such change", "why_tests_cant": "all schemas and all edits", "anchors": ["src/analyzer/mod.rs:analyze", "src/analyzer/indexer.rs", "src/analyzer/helper.rs"]}
{"id": "C67", "title": "The report, exactly", "statement": "For a text that parses, the outcome of parse_dbml is determined by one ordered checklist of rules, each with its error and its place: the project; each table's settings, name, columns (settings, then name) and alias; enums; groups; keys column by column and index by index; types and defaults column by column; references one by one (settings, number of columns, schema, table and columns of either end, types pair by pair, key, conflicts). The error reported, with its place and the names quoted in it, is that of the first rule on the list that is violated; the text is accepted iff none is; the one crash is the one at its position in the list.", "quantifier": "every text that parses, whatever number of rules it violates", "why_tests_cant": "all combinations of mistakes, in all orders", "anchors": ["src/analyzer/mod.rs:analyze", "src/analyzer/indexer.rs", "src/analyzer/helper.rs"]}
{"id": "C68", "title": "Truncated files", "statement": "If a text is accepted and a beginning of it is accepted too (a file cut off, or before something was appended), then the declarations of the beginning are declarations of the text, equal up to positions and in the same order; only the last one may differ, if it is a one-line ref without settings (then name, left side and relation are still those of the text) or a note ''. No table, enum, project or table group is lost or changed. This needs that the beginning has no '/*', or what is cut off no slash; a one-line ref cut in the middle of a name is silently another ref.", "quantifier": "every accepted text and every beginning of it that is accepted", "why_tests_cant": "all texts, all cut points", "anchors": ["src/dbml.pest", "src/parser/mod.rs:parse_schema"]}
{"id": "C69", "title": "Line endings and letters", "statement": "A text that parses still parses when its line ends are written differently (LF, CR LF or CR) and when characters outside ASCII are replaced by others outside ASCII, in names, notes, values and comments alike; the declarations are the same up to positions, with the same changes in quoted texts. So a text with one kind of line end is accepted by parse_dbml_unchecked iff it is with another, and parse_dbml has the same verdict if no quoted text changes (without that it is false: the length of a default counts).", "quantifier": "every text, every kind of line end, every substitution of letters outside ASCII", "why_tests_cant": "all inputs, all substitutions", "anchors": ["src/dbml.pest", "src/parser/mod.rs:parse"]}
{"id": "C70", "title": "Schemas that say the same", "statement": "If two schemas declare the same things - in any order of declarations, columns, enum values, group items and settings, with each reference written in a column or as a block of its own, from either end (a > b is b < a), its column pairs in any order, and naming a table by its schema and name or by its alias - then parse_dbml accepts both or neither. (The index definitions of a table must keep their order.)", "quantifier": "every pair of schemas related in this way", "why_tests_cant": "all schemas, all combinations of such changes", "anchors": ["src/analyzer/mod.rs:analyze", "src/analyzer/indexer.rs", "src/analyzer/helper.rs"]}
{"id": "C71", "title": "Rewriting a document", "statement": "A text accepted by parse_dbml stays accepted, and a text that is read but rejected stays rejected, under any number of rewriting steps: other order of declarations, of columns, enum values, items and settings; moving an inline ref to a block; turning a ref; reordering column pairs; one-line or braced refs; naming or unnaming a ref; alias or full name; (c) or c in an index; adding top-level notes - whatever the layout. The order of index definitions and of indexes blocks does matter.", "quantifier": "every text and every finite sequence of rewriting steps, every layout of the result", "why_tests_cant": "all inputs and all rewrites", "anchors": ["src/analyzer/mod.rs:analyze", "src/analyzer/indexer.rs", "src/analyzer/helper.rs", "src/dbml.pest"]}
{"id": "C72", "title": "Adding and removing tables, enums, groups and indexes of an accepted schema", "statement": "An enum can be added exactly if its name is new and its values and setting keys are distinct, and dropped exactly if no column with a default has it as its type. A table group can be added exactly if its name is new and its items stand for existing, different tables. A table (whose alias nobody uses as a table name) can be added exactly if its name and alias are new, it is in order by itself, and its inline refs are valid and compete with none; it can be dropped exactly if no remaining ref or unqualified group item means it. An index can be added between the indexes of a table exactly if it names columns of the table, is of one kind, and collides with no primary key, unique key or index before or after it; it can be dropped exactly if every ref still has the key it needs, in particular if it is neither primary key nor unique.", "quantifier": "every accepted schema and every such change", "why_tests_cant": "all schemas and all edits", "anchors": ["src/analyzer/mod.rs:analyze", "src/analyzer/indexer.rs", "src/analyzer/helper.rs"]}
{"id": "C73", "title": "Declarations can be edited by their spans", "statement": "Every declaration of an accepted text stands at a piece of the text. The piece alone, the text before it and the text after it are each accepted by parse_dbml_unchecked, and give (up to positions) that declaration, those before and those after it. The span_range of the block lies within the piece, and is the whole piece unless the declaration is a ref (whose span is its statement). So the text at the span can be taken out: exactly that declaration disappears. It can be replaced, or joined before or after, on lines of its own, by any accepted text: exactly that declaration is replaced or joined (provided no /* before meets a */ in the new text and no /* in the new text a */ after it). parse_dbml accepts the edited text exactly if the edited AST satisfies the rules.", "quantifier": "every accepted text, every declaration of it, every accepted replacement", "why_tests_cant": "all texts, positions and edits", "anchors": ["src/parser/mod.rs:parse_schema", "src/dbml.pest", "src/ast/schema.rs"]}
{"id": "C74", "title": "An AST can be printed and read back", "statement": "A printer that uses only the public fields of the AST (raw texts of names, literals and types, relations and lists, not the positions and not the input) and writes one token per line loses nothing but positions: the AST that parse_dbml_unchecked returns for any text, printed like this, is accepted again and gives the same AST up to positions, provided no raw text in it contains /* (in particular if the source text does not). The printed text is accepted by parse_dbml exactly if the original is, printing again gives the same text, and two such ASTs print to the same text exactly if they are equal up to positions.", "quantifier": "every accepted text", "why_tests_cant": "all texts", "anchors": ["src/parser/mod.rs:parse_schema", "src/dbml.pest", "src/ast/schema.rs"]}
{"id": "C75", "title": "Which ASTs exist", "statement": "The AST that parse_dbml_unchecked returns is well-formed for every text: raw texts and values of names, literals and column types agree, refs name at least one column on each side and have a relation, and every derived field (flags, notes, names, defaults, nullability, referential actions, index methods, database type) is what the attribute or property lists say. Conversely every well-formed AST without /* in its raw texts, however it was built, is the AST of a text, namely of what the printer of C74 writes for it; parse_dbml accepts that text exactly if the AST satisfies the semantic rules; and two such ASTs print alike only if they are equal up to positions.", "quantifier": "every accepted text; every well-formed AST", "why_tests_cant": "all texts and all ASTs", "anchors": ["src/parser/mod.rs", "src/ast", "src/dbml.pest"]}
{"id": "C76", "title": "The text of an error", "statement": "Displaying an error of parse_dbml never crashes. The text names the line and column and ends with the message; a syntax error shows the whole line it is in and a marker ^--- right after the text of the line in front of the place; an error about a stretch of one line shows that line and a marker exactly as wide as the stretch, under it; an error about several lines shows the line where it begins and the last one, with dots for lines between them. Line breaks are shown as symbols only if the place is at one. The marker is aligned (tabs stay tabs) unless a lone carriage return stands before the place.", "quantifier": "every rejected text", "why_tests_cant": "all inputs and error places; subtractions of columns could underflow", "anchors": ["src/parser/mod.rs:parse", "src/parser/err.rs", "src/analyzer/err.rs:throw_err"]}
{"id": "C77", "title": "Names can be changed in place by their spans", "statement": "Every identifier in the AST that names something (project, schema, table, alias, column, ref, enum, enum value, table group) records the span of its spelling in the text; these spans are not empty and do not overlap. Writing new spellings at any set of these spans (a word for a word; a quoted name for either) gives a text that is read without error to the same AST, positions aside, with exactly those names changed and nothing else. The edited text is accepted by parse_dbml exactly when that AST meets the rules; if schemas, tables, columns and table groups are renamed consistently and injectively (public stays public), it is accepted exactly when the original text is. An editor can thus rename and refactor by spans alone.", "quantifier": "every text that is read, every set of names in it, every fitting new spelling", "why_tests_cant": "all documents and edit sets; a span off by one, or a parser that re-lexes differently after a change, shows only in some contexts", "anchors": ["src/parser/mod.rs:parse_ident", "src/ast/mod.rs", "src/dbml.pest"]}
{"id": "C78", "title": "Columns, indexes, enum values and group members can be edited by their spans", "statement": "The span_range of a column, of an index definition, of an enum value and of a table group member is the exact piece of the text that declares it. Taking the piece out of an accepted text takes out exactly that member. Replacing it, on lines of its own, by a text that declares such members - or inserting such a text directly before or after it - replaces it by them, or joins them to it, and changes nothing else of the AST, positions aside (provided no /* before meets a */ in the new text and no /* in it a */ after it). A text declares columns, values or members exactly when it does so alone between the braces of a table, enum or table group; the text at the span of one is such a text, so that members can be copied between texts. parse_dbml accepts the edited text exactly if the edited AST meets the rules: a column can be taken out of the text of a valid schema exactly when no index and no reference uses it.", "quantifier": "every accepted text, every member of every declaration, every text that declares members", "why_tests_cant": "all texts, positions and edits; comments and quoted texts anywhere", "anchors": ["src/parser/mod.rs:parse_table_col", "src/parser/mod.rs:parse_indexes_single_multi", "src/parser/mod.rs:parse_enum_value", "src/parser/mod.rs:parse_table_group_decl", "src/dbml.pest"]}
{"id": "C79", "title": "Enums can be renamed", "statement": "Renaming enums, their schemas and their values consistently - in their declarations, in the types of columns and in the defaults of columns of such a type - does not change whether a text is accepted: different names must stay different, public must stay public, the texts of numbers, true, false, null and inf must stay what they are, and the types written must mean the renamed enums, built-in types being left alone. Such types exist whenever the new names contain no dot and are not those of built-in types. Writing a type as e instead of public.e, or the other way round, changes nothing either. This combines with the renamings of C63.", "quantifier": "all texts, schemas and renamings", "why_tests_cant": "a test tries one schema and one renaming; the claim ranges over all of them, and over every place an enum name can be used", "anchors": ["src/analyzer/mod.rs:analyze", "src/analyzer/indexer.rs"]}
{"id": "C80", "title": "The AST is not much larger than the text", "statement": "The AST that parse_dbml and parse_dbml_unchecked return takes linear space: counting one for every record and every stored string and one for every stored character, with all copies (raw texts and names, settings and the values taken from them, the input itself), it is at most nine times the length of the text plus two. No accepted text makes the library build a large value from a short spelling; in particular the text shown for a literal is at most two characters longer than the literal as written.", "quantifier": "every text that parses, of every length", "why_tests_cant": "texts of unbounded length, and all combinations of settings whose values are copied", "anchors": ["src/parser/mod.rs:parse", "src/ast/unit.rs:Value::to_string", "src/ast/schema.rs:SchemaBlock"]}
{"id": "C81", "title": "Everything before a syntax error can be completed", "statement": "If a text has a syntax error, then the text in front of the reported place, and every beginning of it, can be continued to a text without syntax error: nothing before that place has to be changed. So a text that no continuation can repair is blamed inside itself, however it goes on, and an error reported at the end of the text only means that the text is not finished. (The converse is false: a key word that is cut off is blamed where it begins.)", "quantifier": "every text with a syntax error, every beginning of it, every continuation", "why_tests_cant": "the place is collected over all backtracking alternatives, and the claim is about the existence of a continuation in all contexts", "anchors": ["src/dbml.pest", "src/parser/mod.rs:parse"]}
{"id": "C82", "title": "What a syntax error says was expected would fit there", "statement": "Every rule that the message of a syntax error lists as expected would fit at the reported place: the text in front of that place, continued with an example of the rule (where necessary on a new line) and then something else, has no syntax error. Where the end of the input is listed, the text may simply end there; a whole schema is listed only at the very beginning of the text. (Punctuation and key words have no rules of their own, so not everything that would fit is listed.)", "quantifier": "every text with a syntax error, every rule listed in its message", "why_tests_cant": "the list is collected over all backtracking alternatives that fail at the furthest place; that each entry is usable is a claim about the existence of a continuation in every context", "anchors": ["src/dbml.pest", "src/parser/mod.rs:parse"]}
{"id": "C83", "title": "Checking a schema does not blow up", "statement": "The semantic analysis of any AST finishes within a number of steps (comparisons, lookups, copies, rounds of loops) that is at most quadratic, up to a logarithmic factor, in the size of the AST, and, for an AST that was parsed, in the length of the text; counting the steps does not change the result.", "quantifier": "every AST, parsed or built by hand, valid or not", "why_tests_cant": "The worst case is over all shapes of schemas (many references, wide indexes, nested lookups); a benchmark measures a few.", "anchors": ["src/analyzer/mod.rs", "src/analyzer/indexer.rs", "src/analyzer/helper.rs"]}
{"id": "C84", "title": "Which mistake is reported depends only on the core, not on names", "statement": "Two texts that parse to schemas with the same core - after renaming tables and aliases, columns and table groups consistently - get the same verdict from parse_dbml: both are accepted, both are rejected with the same error (up to the source texts and names the error quotes and its position), or both crash. If schemas are renamed as well, the same holds up to whether the error says that a schema, a table or an enum is missing.", "quantifier": "all pairs of texts that parse, all pairs of injective renamings", "why_tests_cant": "Tests compare a few pairs of schemas; that no check, in whatever order, looks at notes, positions, quotes or the letters of a name is a statement about all pairs of texts and all renamings.", "anchors": ["src/analyzer/mod.rs analyze", "src/analyzer/indexer.rs Indexer", "src/analyzer/helper.rs"]}
{"id": "C85", "title": "Adding declarations repairs only what is missing", "statement": "If a text is rejected and a text with the same declarations and further ones, none of which declares a table alias, is accepted, then what was reported is that something is missing: the project, a schema, a table or an enum. Any other mistake (a name, a setting, a key or an alias that is taken, a wrong index, type argument or default, mismatched columns, competing refs) and the crash on an unsized default remain whatever is added, wherever. With an alias a reference can be captured, so the condition is needed.", "quantifier": "all pairs of texts one of which holds the declarations of the other and more", "why_tests_cant": "Tests add a declaration or two to a schema; that no addition anywhere makes a wrong schema pass quantifies over all additions and over every kind of mistake.", "anchors": ["src/analyzer/mod.rs analyze", "src/analyzer/indexer.rs Indexer", "src/analyzer/helper.rs"]}
{"id": "C86", "title": "The parse tree is not much larger than the text", "statement": "For every text that the recognizer accepts, the number of nodes of the tree of pairs it hands to the library, however deep they are nested, is at most four times the number of characters of the text, plus two. No accepted text makes the intermediate tree large.", "quantifier": "every text that the grammar accepts, of any length", "why_tests_cant": "tests count the nodes of a few trees; the grammar has nested repetitions of rules that wrap rules, and nothing but an argument over all of them excludes a text with many nodes for few characters", "anchors": ["src/dbml.pest", "src/parser/mod.rs: parse"]}
{"id": "C87", "title": "The Debug text of an AST determines it", "statement": "Two ASTs that are printed alike by `{:#?}` are equal: no field, list element, variant, position, string or number is lost or can be mistaken for another, whatever characters the strings hold. So two texts that parse give the same Debug text only if they are the same text, a double is never written like an integer, and has an exponent iff it is at least 1e16 or below 1e-4 and not zero; and comparing Debug texts (as the repository's tests do; the AST types have no PartialEq) is comparing ASTs.", "quantifier": "all pairs of ASTs, parsed or built by hand, with any strings and numbers", "why_tests_cant": "tests compare a recorded text with a new one and rely on its being faithful; that no two different ASTs share a text is a statement about all pairs", "anchors": ["src/ast/schema.rs:SchemaBlock", "src/ast/table.rs:TableBlock", "src/ast/unit.rs:Value", "tests/mod.rs"]}
{"id": "C88", "title": "Appending declarations does not hide a mistake", "statement": "If the first mistake of a text belongs to some stage of the checks (project; tables; enums; table groups; keys and indexes; types and defaults; refs), and declarations are appended that are all of kinds that come later (or, for tables, enums and groups, of the same kind), then parse_dbml reports the same error as before, whatever mistakes the appended declarations have; if what was there stands at the same places, the error and its place are the very same (a crash remains a crash). In particular, two texts put together with a line break are reported like the first one.", "quantifier": "every text that parses, each stage of its first mistake, every continuation by declarations of later kinds", "why_tests_cant": "tests append a few declarations to a few texts; that no later check can overtake an earlier one is a statement about all of them", "anchors": ["src/analyzer/mod.rs analyze", "src/analyzer/indexer.rs Indexer", "src/analyzer/helper.rs"]}
