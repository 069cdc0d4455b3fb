# Formal model of dmulyalin/ttp 0.9.5 in Lean 4

## 1. Layout

| file | content |
|---|---|
| `lean/Verif/Py/*.lean` | the Python values and library functions the code uses: strings as lists of code points, insertion-ordered dicts, values, exceptions, `str.split/strip/join/replace`, integers, a backtracking regex engine |
| `lean/Verif/Model/*.lean` | the model, function by function, each definition cites `/repo` file and lines |
| `lean/Verif/Spec/*.lean` | small specifications written without the model's helpers |
| `lean/Verif/Proofs/*.lean` | helper lemmas |
| `lean/Verif/Props/*.lean` | property theorems, one block per property, each with concrete examples that meet the hypotheses (namespace `Props.Ex`) |
| `properties.jsonl`, `tools/claims.txt`, `MANIFEST.json` | properties, the theorems of each, the manifest made from them by `tools/mkmanifest.py` |
| `AXIOMS.txt` | axioms of every theorem of the manifest, made by `tools/axioms.sh` with `#print axioms` |
| `seeded/LOG.jsonl` | wrong programs tried against the theorems |

## 2. Modelling conventions

* Python `str` is `List Char` (code points; surrogates are excluded by `Char`).
* Python dict is an association list in insertion order; all operations keep keys unique (`Dict.WF`).
* Values: `None`, `bool`, `int`, `float` (opaque token), `str`, `list`, `dict`. Objects that live outside of this
  (openpyxl workbooks, compiled expressions) are not modelled; of ipaddress objects the integer content of IPv4/IPv6 addresses and networks is.
* An exception is a value of `Err`; functions that can raise live in `Except Err` (`PyM`).
* Mutation through references becomes return of the new value. Where the code relies on an alias (the element
  returned by `dict_by_path` is updated in place inside `self.results`), the model uses an update-at-path function.
* `re`: the regular expressions are syntax trees of type `Re`, run by a backtracking matcher (list of successes in
  priority order) which is the model of `re.finditer/search/findall`. The trees of a line are built by the model
  (Model/Line). Beside it there is the text layer: `Py/RegexText` parses the text of an expression, `Model/LineText` builds that text
  as `form_regex` does by replacement; C130, C131 prove that both ways give the same matches. Most theorems leave the compilation of a
  user's pattern open (parameter `re` of `LoadCtx`); the text layer uses the parser for it.
* `eval` of the arguments of a function in a template is a parameter (`LoadCtx`), as is what a user's macro does. Model/Args gives the parameter for the
  arguments templates use (quoted texts, integers, names, lists, `name=value`; C143); for other texts it stays a parameter. The reader was compared with
  CPython on 60000 random texts (no difference).
* Logging has no effect on results and is not modelled.
* Recursion of Python over trees of unbounded depth is structural recursion or uses fuel that is proved (or is by construction)
  sufficient; `RecursionError` is not modelled.

## 3. Plan per property

For each property: the modelled code, and how it is proved. "negation" means that the full statement is false of the code; then
there is a theorem with a concrete counterexample, and a theorem with suffix `_partial` (or one that states exactly what the
code does) for the part that holds. No property had to be left out because a model cannot express it.

| property | status | modelled code | proof |
|---|---|---|---|
| C01 List path accumulates every record in order | proved | `save_curelements`, `dict_by_path`, `value_to_list`, `_merge_recursively` (Model/Save) | induction over path and over the list of records |
| C02 Plain path: one record is a dict, several are a list of all of them | proved | `save_curelements`, `dict_by_path`, `value_to_list`, `_merge_recursively` (Model/Save) | induction over path and over the list of records |
| C03 '**' path merges into one dictionary and the first value wins | proved | `save_curelements`, `dict_by_path`, `value_to_list`, `_merge_recursively` (Model/Save) | induction over path and over the list of records |
| C04 Saving a record touches only its own path | proved | `save_curelements`, `dict_by_path`, `value_to_list`, `_merge_recursively` (Model/Save) | induction over path and over the list of records |
| C05 The null path '_' never shows up in results | partial | the same | negation with witness; partial theorem for the case that holds |
| C06 dynamic_path_key_to_int never loses results | partial | the same | negation with witness; partial theorem for the case that holds |
| C07 A child record attaches to the most recent parent record | proved | `save_curelements`, `dict_by_path`, `value_to_list`, `_merge_recursively` (Model/Save) | induction over path and over the list of records |
| C08 Late (tail) matches merge into the last record only | proved | `save_curelements`, `dict_by_path`, `value_to_list`, `_merge_recursively` (Model/Save) | induction over path and over the list of records |
| C09 A record whose path is blocked by a plain value changes nothing | proved | `save_curelements`, `dict_by_path`, `value_to_list`, `_merge_recursively` (Model/Save) | induction over path and over the list of records |
| C10 Flat group: one record per valid start, with the lines that follow it | proved | `make_results`, `start`, `add`, `end`, `processgrp` (Model/Machine) | refinement of the machine to a segmentation of the matches (Spec/Segments), induction over the matches |
| C11 The first value matched for a variable in a record is kept | proved | the same | invariant of the machine / step lemma, induction over the matches |
| C12 Defaults fill exactly the variables that did not match | proved | the same | invariant of the machine / step lemma, induction over the matches |
| C13 After _end_ a group collects nothing until it starts again | proved | the same | invariant of the machine / step lemma, induction over the matches |
| C14 Lines after a rejected start are not attributed to anybody | proved | the same | invariant of the machine / step lemma, induction over the matches |
| C15 joinmatches keeps every match in text order | proved | the same | invariant of the machine / step lemma, induction over the matches |
| C16 Nothing below a rejected parent is reported | partial | the same | negation below the first level; partial for direct children |
| C17 Competing matches on the same line are resolved by documented preference | proved | the same | invariant of the machine / step lemma, induction over the matches |
| C18 A record rejected by a group function leaves no trace | proved | the same | invariant of the machine / step lemma, induction over the matches |
| C19 Named template variables are saved at their path | proved | `save_vars` | induction over paths |
| C20 Records are formed in text order, whatever the order of template lines | proved | `parse`, `run_re`, `check_matches` (Model/Parser) | induction over group tree and match list, any regex engine results |
| C21 A match is dropped at the first check that fails | proved | `parse`, `run_re`, `check_matches` (Model/Parser) | induction over group tree and match list, any regex engine results |
| C22 No fabricated values | proved | all of Save, Machine, Parser | invariant 'every text in the results is a slice of the text, a default or made by a function', through every function |
| C23 Child groups only see the text of their parent | partial | `run_re` with `_end_` | bounds proved for all inputs; two negations |
| C24 A group without matches yields its defaults once, or nothing | proved | `parse`, `run_re`, `check_matches` (Model/Parser) | induction over group tree and match list, any regex engine results |
| C25 A line rendered from a template line parses back to the same values | proved | `form_regex`, `get_regexes`, regex engine (Model/Line, Py/Regex) | induction over the tokens of the line, soundness and completeness of the matcher for these trees; C63, C64 also negations |
| C26 Runs of blanks in a template line match any run of blanks | proved | `form_regex`, `get_regexes`, regex engine (Model/Line, Py/Regex) | induction over the tokens of the line, soundness and completeness of the matcher for these trees; C63, C64 also negations |
| C27 Digits in a template line stand for any number | proved | `form_regex`, `get_regexes`, regex engine (Model/Line, Py/Regex) | induction over the tokens of the line, soundness and completeness of the matcher for these trees; C63, C64 also negations |
| C28 A template line matches whole lines only | proved | `form_regex`, `get_regexes`, regex engine (Model/Line, Py/Regex) | induction over the tokens of the line, soundness and completeness of the matcher for these trees; C63, C64 also negations |
| C29 A default pattern captures a non-empty word without whitespace | proved | `form_regex`, `get_regexes`, regex engine (Model/Line, Py/Regex) | induction over the tokens of the line, soundness and completeness of the matcher for these trees; C63, C64 also negations |
| C30 Any variable name becomes a valid capture name | proved | `form_regex`, `get_regexes`, regex engine (Model/Line, Py/Regex) | induction over the tokens of the line, soundness and completeness of the matcher for these trees; C63, C64 also negations |
| C31 add_input keeps every distinct datum once, in order | proved | class `ttp`, `_template_class` run-time part, `_input_class` (Model/Object) | state machine, induction over call histories and data; C42, C44, C47 also negations |
| C32 set_input replaces the inputs of the named template only | proved | class `ttp`, `_template_class` run-time part, `_input_class` (Model/Object) | state machine, induction over call histories and data; C42, C44, C47 also negations |
| C33 Per-input results: one entry per datum, in order, appended | proved | class `ttp`, `_template_class` run-time part, `_input_class` (Model/Object) | state machine, induction over call histories and data; C42, C44, C47 also negations |
| C34 Per-template results are combined and replaced | proved | class `ttp`, `_template_class` run-time part, `_input_class` (Model/Object) | state machine, induction over call histories and data; C42, C44, C47 also negations |
| C35 Multiprocess parsing yields the same results in some order | proved | `__parse_in_multiprocess`, `_worker` (Model/Multi) | small-step transition system with queues and feeder threads, invariant over all schedules; termination by a measure, absence of deadlock; C36-C38 negations and partial |
| C36 Multiprocess parsing agrees with single process for per_template results | partial | `__parse_in_multiprocess`, `_worker` (Model/Multi) | small-step transition system with queues and feeder threads, invariant over all schedules; termination by a measure, absence of deadlock; C36-C38 negations and partial |
| C37 Custom functions do not hide built-in functions in worker processes | partial | `__parse_in_multiprocess`, `_worker` (Model/Multi) | small-step transition system with queues and feeder threads, invariant over all schedules; termination by a measure, absence of deadlock; C36-C38 negations and partial |
| C38 Multiprocess parsing never gets stuck | partial | `__parse_in_multiprocess`, `_worker` (Model/Multi) | small-step transition system with queues and feeder threads, invariant over all schedules; termination by a measure, absence of deadlock; C36-C38 negations and partial |
| C39 parse() picks the process mode as documented | proved | `parse` | decision logic |
| C40 result() structures agree with each other | proved | class `ttp`, `_template_class` run-time part, `_input_class` (Model/Object) | state machine, induction over call histories and data; C42, C44, C47 also negations |
| C41 add_vars reaches all templates and the newest value wins | proved | class `ttp`, `_template_class` run-time part, `_input_class` (Model/Object) | state machine, induction over call histories and data; C42, C44, C47 also negations |
| C42 clear_result clears exactly the named templates | partial | class `ttp`, `_template_class` run-time part, `_input_class` (Model/Object) | state machine, induction over call histories and data; C42, C44, C47 also negations |
| C43 Variables recorded while parsing one datum do not leak into the next | proved | class `ttp`, `_template_class` run-time part, `_input_class` (Model/Object) | state machine, induction over call histories and data; C42, C44, C47 also negations |
| C44 Groups are routed to inputs as declared | partial | class `ttp`, `_template_class` run-time part, `_input_class` (Model/Object) | state machine, induction over call histories and data; C42, C44, C47 also negations |
| C45 Unknown outputs of a group are dropped | partial | `update_groups_with_outputs`, `lazy_import_functions` (Model/Load) | index loop with mutation; state machine over cache files; negations and partial |
| C46 The function cache is only used for its own version | partial | `update_groups_with_outputs`, `lazy_import_functions` (Model/Load) | index loop with mutation; state machine over cache files; negations and partial |
| C47 Anonymous group results are merged with named group results | partial | class `ttp`, `_template_class` run-time part, `_input_class` (Model/Object) | state machine, induction over call histories and data; C42, C44, C47 also negations |
| C48 unrange expands ranges exactly | proved | match functions (Model/Match, Model/Net) and the loop that calls them | functional correctness against Spec/Match; numbers by induction on digits; C67 negation |
| C49 to_cidr inverts a netmask | proved | match functions (Model/Match, Model/Net) and the loop that calls them | functional correctness against Spec/Match; numbers by induction on digits; C67 negation |
| C50 mac_eui normalises and is idempotent | proved | match functions (Model/Match, Model/Net) and the loop that calls them | functional correctness against Spec/Match; numbers by induction on digits; C67 negation |
| C51 item never fails on non-empty data and clamps the index | proved | match functions (Model/Match, Model/Net) and the loop that calls them | functional correctness against Spec/Match; numbers by induction on digits; C67 negation |
| C52 truncate keeps the first n words | proved | match functions (Model/Match, Model/Net) and the loop that calls them | functional correctness against Spec/Match; numbers by induction on digits; C67 negation |
| C53 contains / containsall / exclude / excludeall decide on matched values only | proved | group functions (Model/Group) and `processgrp` | functional correctness against Spec/Group, induction over argument lists; C68 negation |
| C54 expand builds the nested structure named by dotted keys | proved | group functions (Model/Group) and `processgrp` | functional correctness against Spec/Group, induction over argument lists; C68 negation |
| C55 dict_to_list keeps every entry and its key | partial | outputs, formatters, loaders (Model/Format), `_outputter_class.run` | functional correctness against Spec/Format; round trip csv writer / csv reader by induction over characters; C55 negation |
| C56 The table formatter loses no cell | proved | outputs, formatters, loaders (Model/Format), `_outputter_class.run` | functional correctness against Spec/Format; round trip csv writer / csv reader by induction over characters; C55 negation |
| C57 CSV output can be read back | proved | outputs, formatters, loaders (Model/Format), `_outputter_class.run` | functional correctness against Spec/Format; round trip csv writer / csv reader by induction over characters; C55 negation |
| C58 CSV lookup tables index every row by its key column | proved | outputs, formatters, loaders (Model/Format), `_outputter_class.run` | functional correctness against Spec/Format; round trip csv writer / csv reader by induction over characters; C55 negation |
| C59 count counts matches | proved | match functions (Model/Match, Model/Net) and the loop that calls them | functional correctness against Spec/Match; numbers by induction on digits; C67 negation |
| C60 Numeric comparison checks are consistent | proved | match functions (Model/Match, Model/Net) and the loop that calls them | functional correctness against Spec/Match; numbers by induction on digits; C67 negation |
| C61 cidr_match tells whether the networks share an address | proved | match functions (Model/Match, Model/Net) and the loop that calls them | functional correctness against Spec/Match; numbers by induction on digits; C67 negation |
| C62 Outputs return the data unchanged unless told to return the result | proved | outputs, formatters, loaders (Model/Format), `_outputter_class.run` | functional correctness against Spec/Format; round trip csv writer / csv reader by induction over characters; C55 negation |
| C63 Variables of one line are kept apart | partial | `form_regex`, `get_regexes`, regex engine (Model/Line, Py/Regex) | induction over the tokens of the line, soundness and completeness of the matcher for these trees; C63, C64 also negations |
| C64 What a line does is decided by its variables | partial | `form_regex`, `get_regexes`, regex engine (Model/Line, Py/Regex) | induction over the tokens of the line, soundness and completeness of the matcher for these trees; C63, C64 also negations |
| C65 Every template line has exactly one role | proved | `form_regex`, `get_regexes`, regex engine (Model/Line, Py/Regex) | induction over the tokens of the line, soundness and completeness of the matcher for these trees; C63, C64 also negations |
| C66 Checks and conversions leave variables alone | proved | match functions (Model/Match, Model/Net) and the loop that calls them | functional correctness against Spec/Match; numbers by induction on digits; C67 negation |
| C67 An error inside a match function is not hidden | partial | match functions (Model/Match, Model/Net) and the loop that calls them | functional correctness against Spec/Match; numbers by induction on digits; C67 negation |
| C68 contains accepts a record if any listed variable matched | partial | group functions (Model/Group) and `processgrp` | functional correctness against Spec/Group, induction over argument lists; C68 negation |
| C69 record and set transport values between groups | proved | group functions (Model/Group) and `processgrp` | functional correctness against Spec/Group, induction over argument lists; C68 negation |
| C70 del removes exactly the listed variables | proved | group functions (Model/Group) and `processgrp` | functional correctness against Spec/Group, induction over argument lists; C68 negation |
| C71 to_int only converts listed values | proved | group functions (Model/Group) and `processgrp` | functional correctness against Spec/Group, induction over argument lists; C68 negation |
| C72 items2dict builds one key-value pair | proved | group functions (Model/Group) and `processgrp` | functional correctness against Spec/Group, induction over argument lists; C68 negation |
| C73 group lookup replaces, adds or merges only on a hit | proved | group functions (Model/Group) and `processgrp` | functional correctness against Spec/Group, induction over argument lists; C68 negation |
| C74 equal, exclude_val and contains_val compare with the value or the template variable | proved | group functions (Model/Group) and `processgrp` | functional correctness against Spec/Group, induction over argument lists; C68 negation |
| C75 itemize turns records into list items | proved | group functions (Model/Group) and `processgrp` | functional correctness against Spec/Group, induction over argument lists; C68 negation |
| C76 group macros run in order on each other's results | proved | group functions (Model/Group) and `processgrp` | functional correctness against Spec/Group, induction over argument lists; C68 negation |
| C77 traverse finds the data at the path | proved | outputs, formatters, loaders (Model/Format), `_outputter_class.run` | functional correctness against Spec/Format; round trip csv writer / csv reader by induction over characters; C55 negation |
| C79 meaningless template lines make no difference | proved | `_group_class`, `_variable_class`, `get_attributes` (Model/Template) | induction over lines and XML children; C81 negation |
| C80 the name of a group decides where it saves | proved | `_group_class`, `_variable_class`, `get_attributes` (Model/Template) | induction over lines and XML children; C81 negation |
| C81 groups do not share an identity | partial | `_group_class`, `_variable_class`, `get_attributes` (Model/Template) | induction over lines and XML children; C81 negation |
| C82 defaults declared in a template | proved | `_group_class`, `_variable_class`, `get_attributes` (Model/Template) | induction over lines and XML children; C81 negation |
| C83 a dictionary as default of a group | proved | `_group_class`, `_variable_class`, `get_attributes` (Model/Template) | induction over lines and XML children; C81 negation |
| C84 functions of a pipe are read in order | proved | `_group_class`, `_variable_class`, `get_attributes` (Model/Template) | induction over lines and XML children; C81 negation |
| C78 a simple template means what it says | proved | line compiler, search, machine, object together, one flat group | composition; specification Spec/Whole reads lines directly without regexes |
| C85 matches of nested groups become the tree of records | proved | the machine on nested groups | simulation of the machine by a desk of records (Spec/Nest) |
| C86 group functions run in order on each other's results | proved | group functions (Model/Group) and `processgrp` | functional correctness against Spec/Group, induction over argument lists; C68 negation |
| C87 a template of nested groups, from its XML to the results | proved | loader, search, machine, object together, nested groups | composition of C78's and C85's lemmas over the tree of groups (Spec/Tree2) |
| C88 order of the tags of a template | proved | loader of templates (Model/Tags) | the tags of each kind are filters of the children |
| C89 template variables | proved | vars tags (Model/Tags) | fold over the tags, lookups in updated dictionaries |
| C90 templates inside of a template | partial | child templates (Model/Tags) | induction over the children |
| C91 input tags with text | proved | input tags (Model/Tags) | induction over the tags |
| C92 inputs that only groups name | proved | inputs named by groups (Model/Tags) | induction over the names |
| C93 From the template element to the results | proved | Model/Tags, Object, Template, Line, Parser, Machine together | composition of C87, C91 and the object theorems; the dictionary of inputs is followed through loading and add_input |
| C94 Group names with placeholders put each record under its own key | proved | Model/Machine formPath, substVar, makeResults | match of the brace regexes on a placeholder, induction over the matches, exact save into keyed dictionary |
| C95 A template without tags | proved | Model/New newTTP, addTemplateAny, constructEtree | C78 search and machine with plain path, C79 for meaningless lines, C93 input gathering |
| C96 Extend tags stand for the elements of the template they name | partial | Model/Extend: handle_extend, filter_extend, load_files(read=True), construct_etree | induction over the expansion relation (Spec/Extend); settled elements are passed over |
| C97 A template that extends itself never loads | proved | Model/Extend | induction on the recursion limit |
| C98 Groups with outputs of their own | proved | Model/Own: parse with the outputs of every group | simulation of the group loops, Props/Own |
| C99 Tables under a line of headings | proved | line of headings, its expression, the variables of columns, loader, search, results machine | induction over the columns for the first match of the expression, over the lines for the search, over the cells for the checks |
| C100 replaceall replaces exactly the listed texts | proved | Model/Match `replaceall` | iff with the relation `Replaced` (leftmost, not overlapping) of Spec/MatchStr |
| C101 append, prepend and join | proved | Model/Match | direct computation for all values |
| C102 set, let and copy | proved | Model/Match | direct computation for all values |
| C103 checks of matched texts | proved | Model/Match | iff with infix and equality |
| C104 lookup tables for matched values | proved | Model/Match | walk of nested dictionaries, `Globs` relation |
| C105 checks with regular expressions | partial | Model/Match `startsRe`, `endsRe` | regex engine, all positions |
| C106 resub and resuball | proved | Model/Match `subN` | iff with the relation `ReReplaced`; for expressions that can match the empty text with `Replacing`; resuball with `ReplacingSeq` |
| C107 durations in words | proved | Model/Match `upRe`, `uptimeparse` | every backtracking way to match captures the same numbers, and there is one |
| C108 Data given as a path stand for the texts of the files | proved | Model/Object loadFiles, loadRead, dataOf, addInput | simulation of two objects that differ in data items parsed alike (Proofs/Files) |
| C109 Input tags with urls read exactly the files that pass | proved | Model/Tags loadUrl, selectFiles, inAttrs | induction over attributes, urls, files |
| C110 The hostname of a text is that of its first prompt | proved | Model/Inputs.lean: the seven expressions, order, marks | regex runs as ordered splits (Proofs/Hostname), per kind, then lines |
| C111 Variables with functions | proved | Model/Object.lean runVarFns, parseDatum; Model/Inputs.lean callVar | induction on the functions |
| C112 Input functions form a pipeline | proved | Model/Object.lean runInFns, parseDatum; Model/Format.lean inMacro; Model/Inputs.lean callIn | iff with an inductive specification |
| C113 extract_commands keeps exactly the outputs of the commands | proved | Model/Inputs.lean extractCommands | regex runs with greedy blanks and the lazy output (Proofs/Commands) |
| C114 equal means Python equality | proved | pyEq (Model/Match), equal, excludeVal, isEqual | pyEq decides the inductive relation SameVal (both directions, by induction on the size of the value), then each check is rewritten with it |
| C115 outputs run one after the other | proved | runOutputsAux, runOutputsAll, parseOne (Model/Object) | induction on the outputs and on the templates, against the inductive relations OneOutput and OutputChain |
| C116 Templates, lookup tables and input parameters are kept per template in order | proved | addTemplate, addLookup, getInputLoad (Model/Object) | direct, by induction on the templates |
| C117 sformat fills in names and values | proved | Fmt.run (Model/Fmt): str.format; GroupFn.sformat; MatchFn.callPure sformat | induction on the parts of the format string, against the inductive relation FilledIn |
| C118 Output tags | proved | `loadOutput`, `OutFn.readTag`; loaders are parameters | induction over the attributes; `Dict.update` as `overlay` |
| C119 File returner | proved | `OutFn.fileReturner`: effects are a list | format strings of C117 |
| C120 Terminal returner | proved | `OutFn.terminal` | relation `Coloured` kept by every replacement |
| C121 Syslog returner | proved | `OutFn.syslog`, `OutFn.messages`; JSON is a parameter | `messages_iff`, `traverse_iff` |
| C122 Outputs and what they do outside | proved | `OutFn.runTag`, `OutFn.runTags` | induction over outputs and returners |
| C123 is_ip accepts exactly the address texts | proved | Model/Ip (ipaddress parsing of version 4), Model/Match isIp | exact characterisation of accepted texts against Spec/Ip |
| C124 cidr_match on texts | proved | Model/Ip toIp, toNet; Model/Match cidrFn | blocks of addresses, overlaps_iff |
| C125 ip_info tells the facts of an address | proved | Model/Ip info (bit operations) | equality with arithmetic facts in Spec/Ip |
| C126 to_float and print | partial | Model/Match toFloat | case analysis |
| C127 Results of macros of match variables | proved | Model/Match macroRes | case analysis over the results |
| C128 lookup in results of templates and groups | partial | Model/Match tplSource, grpSource, lookupIn | induction over the templates, results and the path |
| C129 record saves a match as variable | proved | Model/Match record | dictionary lemmas |
| C130 The text of the regular expression of a line | proved | Py/RegexText is a parser of regular expressions, Model/LineText builds the text as form_regex does | the text is a sequence of chunks, each of which the parser reads as a unit; simulation of the text loader by the tree loader |
| C131 The text of a line of headings | proved | Model/LineText headerCols, headerText | chunks of the parser; the decimal text of a number is read back as the number |
| C132 What the named patterns match | proved | the texts of get_pattern.py, compiled with the model of re.compile | language of every operator of regular expressions, then the trees of the patterns |
| C133 The JSON formatter writes the results faithfully | proved | Model/Json: dump with indent, sorted keys and separators, ensure_ascii; specification: the JSON grammar as inductive relations (Spec/Json) | mutual induction over values; float texts are a hypothesis (FloatsOk) |
| C134 The JSON loader reads exactly JSON documents | proved | Model/Json: recursive descent reader of the json module | soundness and completeness of the reader against the grammar (loads_iff) |
| C135 Data in tags: loaders and included files | proved | Model/Loaders: the six loaders and include; specification: Spec/Loaders (Included, Follows), Spec/Csv, Spec/Json | from C58, C134 and the theory of paths (C108) |
| C136 Output functions of a tag | proved | Model/Outputs: callOut | case analysis, C114, C77 and C55 |
| C137 Template texts are read by the grammar of XML | proved | Model/XmlText: tokens, building of elements | grammar as inductive predicates (Spec/XmlText); soundness and completeness of the tokens, then a stack invariant for building |
| C138 Writing and reading a template changes nothing | proved | Model/XmlText: tostring; Model/Extend: readTemplate | the written text is in the grammar (induction over the element), then C137; extended templates keep the conditions (induction over Expands) |
| C139 Template text needs escapes for three characters only | proved | Model/XmlText with Model/New | C137's grammar, C95 |
| C140 Which template texts fail to load | proved | Model/Tags: constructEtree, Model/XmlText | inversion of the token sequence, C137 |
| C141 A template with templates inside loads the templates as written | proved | Model/Inner (bytes, their repr, objects of bytes, add_template of texts) over Model/XmlText, Model/Extend, Model/Tags | mutual induction over the relation of a tree and what it is loaded as; writer/reader round trip; the repr of a written element is a written element |
| C142 Text after a template inside of a template makes it unloadable | proved | Model/Inner | the part of a text after its last > decides whether it is a document; the repr of the element with its tail is again such an element; induction over the bound |
| C143 Arguments of functions mean what they say | proved | `Args.eval`, a reader of the argument list with Python's tokens | the reader accepts exactly the grammar `AItems` (completeness by induction over the derivation, soundness by induction over the fuel), binding accepts exactly `Ordered` |
| C144 Lookup tables of a template | proved | lookup tags (Model/Tags parseLookup) | induction over the tags, last entry of a filtered list |
| C145 Input tags with attributes, urls, functions and a dictionary in the text | proved | input tags (Model/Tags loadInput, putTag) | attributes as a fold against the relation LastIs/GroupsIs/InCalls, then induction over the tags with the state of the first tag of each name |
| C146 Record lookups in results of templates and groups | proved | group lookup (Model/Group lookupFrom, elsewhere, groupSource) | search over lists by induction, path by induction, cases over the actions |
| C147 Addresses with masks in records | proved | to_ip of groups (Model/Group toIpFn) | grammar of addresses of C123 |
| C148 Validation of records | proved | cerberus, validate (Model/Group) | cases, format strings of C117 |
| C149 Reports of the validation of results | proved | validate of outputs (Model/Outputs validateOut) | induction over the items, format strings of C117 |
| C150 Comparison of results of two inputs | proved | deepdiff (Model/Outputs diffRun) | blocks of results by induction over the inputs |
| C151 What a flat group means, with patterns, functions, defaults and marks | proved | loader, line compiler, regular expressions, search, results (Model/Template, Line, Regex, Parser, Machine) | the meaning is a specification without the code (Spec/Rich); composition of C79–C84, C132, C163–C165, C26–C30, the search and C10; simple expressions have a language that does not depend on what follows (induction over the expression) |
| C152 Workbooks of the excel formatter | proved | Model/Excel: formatter and saving; openpyxl as lists of sheets | induction over the tabs; specification BookWith names old sheets, rows below and added sheets |
| C153 A function name stands for the function added last under it, otherwise for the function of TTP | partial | Model/Lazy: the table with CachedModule entries, load, call, add_function, the list of files of this installation | invariant over all histories, by induction on the history from its end |
| C154 Objects of one process do not see each other's data | partial | Model/Lazy: the global _ttp_ of every module | the same invariant, with the last reader of each file |
| C155 `result` with keyword arguments is an output of its own | proved | `resultCall` with the output of the keyword arguments run on each template, effects of the returners collected | induction on the templates, the flag of `self` carried as an invariant; attributes by the theorem for output tags |
| C156 `quick_parse` on a template of plain lines | proved | `quickParse` on top of `newTTP`, `parseOne` and `resultCall` | from C139 and C155 |
| C157 What nested groups mean, with patterns, functions, defaults and `_start_` | proved | loader, line compiler, regular expressions, search, results (Model/Template, Line, Regex, Parser, Machine) | the meaning is a specification without the code (Spec/RichTree); induction over the tree of groups for the loader and the search, the sorted matches are the events of the text, then C85 |
| C158 A name lookup asks the servers it names, otherwise those of the system | partial | Model/Dns: the resolver of the process, calls with their answers | induction on the history from its end |
| C159 What a name lookup gives | proved | Model/Dns | case analysis over answers, for all histories |
| C160 Records of geoip2 databases | proved | Model/Geo: loader and match function, geoip2 as a function | induction over the entries of the tag with the invariant that no later entry has the name of a loaded one |
| C161 The text of `get_template` stands for the same template | proved | Model/GetTemplate on top of Model/Extend, Model/XmlText | from C138 and C96 |
| C162 The command line prints a JSON document of the results | proved | Model/Cli on top of Model/New, Model/Object, Model/Json; Spec/Cli | composition of C95, C108, C133 with a lemma that equal data mean the same |
| C163 Arguments of match functions that name template variables | proved | loadVar, extract, argsFromVars (Model/Template) | induction over the functions and over the arguments |
| C164 The expressions of a variable | proved | loadVar, extractRe, findRe (Model/Template) | induction over the functions |
| C165 chain stands for the functions of a template variable | proved | loadVar, extract, chainAttrs (Model/Template) | eachAttr over an append; depth does not matter for functions other than chain; induction over the depth for the endless chain |
| C166 What validate_yangson reports | proved | validate, run, checkList (Model/Yangson) | induction over the list with the numbers that are already used as invariant |
| C167 The library of YANG modules is that of the directory | partial | makeLibrary, readFiles, modLoop, subLoop (Model/Yangson) | dictionary updates as one list of pairs; induction over statements, submodules and modules |
| C168 The diagram formatter hands every result to the diagram | proved | Model/N2g: the formatter with the library as a record of functions | induction on the results; C77 for the path |
| C169 Where the records of a flat group go | proved | Spec/Placed (PathStep, placedAt, Gathers, PlacedMeans) over Spec/Rich; the model of loading, searching and saving as for C151 | modAt and valueToList on a structure that has nothing but the path, by induction over the path; then induction over the records; C151 gives the records |
| C170 Group functions of a flat group, from the template to the results | proved | loading, results machine, group functions as a parameter; spec Spec/RichFns | simulation of the machine by the records read, with the functions at every save |
| C171 Checks of a group, from the template to the results | proved | loading, results machine, built-in checks; spec Spec/Checks | C170 with the answers of the checks (C53, C74) |
| C172 The default of a group | proved | loading of groups and variables, results machine; spec Spec/GroupDefault | equality of the loaded groups by induction over lines and pieces, then C170 |

## 4. What is modelled and what is not

| code | model | left out or simplified |
|---|---|---|
| `_results_class` (2668-3265) | Model/Save, Model/Machine, complete | `form_path` takes a placeholder name literally in its second regex (exact for names without regex characters); joined values of unusual types |
| `_parser_class` (2350-2658) | Model/Parser, Model/Object, outputs of groups in Model/Own | - |
| `_variable_class` (1961-2331) | Model/Line, Model/Template, `_headers_` in Model/Headers | variables named like a keyword (`set`, `default`, ...) |
| `_group_class` (1636-1930) | Model/Template, Model/Parser | messages |
| `_template_class` (892-1415) | run-time part in Model/Object, outputs of groups in Model/Load, loading in Model/Tags, `extend` in Model/Extend, templates inside as texts in Model/Inner | text of macro tags |
| `ET.XML`, `ET.tostring` | Model/XmlText | names that are not ASCII, name spaces, declaration, document type |
| `_input_class` (1425-1615) | data and routing in Model/Object, tags in Model/Tags | `extract_commands` given as a dictionary; `add_input` without data does not read urls again |
| `_outputter_class` (3275-3443) | `run` in Model/Object, attributes in Model/Tags | attributes that only concern formatters and returners |
| class `ttp` (187-811) | Model/Object, Model/Multi, construction in Model/New, `result` with keyword arguments and `quick_parse` in Model/Result, `get_template` in Model/GetTemplate | - |
| `_worker`, multiprocess parse | Model/Multi | failures of the operating system, of pickling |
| `lazy_import_functions`, `CachedModule` | Model/Load, Model/Lazy | reading of the source files (a table; the list of files and functions of this installation is `ttpFiles`) |
| `ttp/match/*` | Model/Match, Model/Net, Model/Ip (addresses), Model/Fmt (`sformat`), Model/Dns (`dns`, `rdns`), Model/Geo (`geoip_lookup` and the loader of databases) | `to_ip` and `to_net` as functions of their own (addresses as values); texts of IPv6 addresses, `float()`, the answers of dnspython and geoip2 are parameters |
| `ttp/group/*` | Model/Group | Cerberus and address objects are parameters; `str_to_unicode` (Python 2) |
| `ttp/variable`, `ttp/input` | Model/Inputs | the clock is a parameter |
| `ttp/output`, `ttp/formatters`, `ttp/returners` | Model/Format: `traverse`, `dict_to_list`, table, csv, `is_equal`, macros; Model/Outputs: output tags, file, syslog and terminal returners; Model/Yangson: `validate_yangson`; Model/Excel: the excel formatter and saving workbooks; Model/Json: the json formatter (Python's `json.dumps`, checked against Python on 1033 random values and texts) | yaml/pprint/jinja2/N2G, yangson; the libraries tabulate, deepdiff and cerberus are parameters, openpyxl is a list of sheets |
| `ttp/patterns` | Model/LineText | other names of that module |
| `ttp/utils` | `load_csv`, `load_files`, `get_attributes`; Model/Args: the arguments in it; Model/Json: `load_json` with Python's reader; Model/Loaders: `load_struct`, the six loaders and `include` | what `exec`, `yaml.safe_load` and `configparser` do with a text (parameters `Readers`), `guess` (messages only) |
| `cli_tool` (what is done with the options) | Model/Cli | reading of the options by argparse, `--Timing`, logging: not modelled |
| logging | - | not modelled |

Timing, memory, the operating system's process and pipe behaviour, third-party libraries (cerberus and deepdiff, which are parameters,
openpyxl, jinja2, yaml, N2G, geoip2, dnspython, yangson) are not modelled.

Model parameters (theorems hold for all of them unless a hypothesis restricts them): `MatchFns`, `GroupFns` (what match and group
functions do; the built-in ones are `MatchFn.builtin`, `GroupFn.builtin`), `Engine` (input, variable and output functions,
formatters, returners, files), `LoadCtx` (`eval` of arguments, regex text, known functions), `setOrder` (order of `list(set(..))`).

## 5. Where the code does not do what one relies on

Each is a theorem with a concrete witness (see the notes in MANIFEST.json): C05 null path key leaks; C06 second record on a numeric
path loses everything; C16 grandchildren of an ended group are reported; C23 `_end_` has no effect after a preamble;
C36 per_template results of a multiprocess run; C37 custom functions hide built-in ones in workers; C38 an exception in a worker hangs `parse`;
C42 global variables survive `clear_result`; C44 order of groups after a second `add_input`; C45 names after an unknown output; C46 foreign
cache files; C47 anonymous single record; C55 `dict_to_list` changes results in place; C63 variables with the same sanitized name;
C64 `joinmatches` lost; C67 `KeyError` in a macro is hidden; C68 `contains` with defaults; C79 a group without text raises; C81 two groups with
one identity; C83, C84, C85 details of defaults, pipes in arguments, `_end_` before any record; C89, C90, C94, C96, C98, C99 tags, child
templates, dynamic paths, extended templates, outputs of groups, headings; C101 `append` and `prepend` do not see global variables; C104 a key repeated
by `gpvlookup`; C105 an anchor binds to one alternative of an expression only; C107 a unit of time followed by a digit; C108 a vanished file is
parsed as its path, a file that is not UTF-8 raises; C110 comment lines and letters of names in `gethostname`; C113 hostnames are not escaped; C116 `get_input_load` and templates of one name; C117 `sformat` with other fields; C118
`strict="False"` is true; C119, C120, C121 details of output tags and returners; C125 -1 hosts; C126 `to_float` raises; C128 group lookups in
templates with `per_template` results; C133 number keys; C58 a line break in quotes; C135 a missing include file; C138 a carriage return in a template; C141, C142 templates inside that are lines of text or are followed by text; C130 `ignore` with two arguments, pasted patterns; C145 several input tags of a name, names and commands in the text of input tags; C153 a function added under a name of TTP is replaced by a later import; C154 objects of one process share the data of functions; C149 `validate` changes results and loses texts; C150 `deepdiff` with `input_after` only; C132 `IP` matches more than addresses; C151 a rejected `_end_` line; C152 titles of tabs after the first run, `update` with variables in the file name, columns of added rows, tabs without path; C158 name servers given once are used by later lookups; C160 kinds of databases named in other letters or twice; C162 apostrophes in `-v`, no `-t`, `-o JSON`, `-d` with named templates; C163 a list or dictionary as argument of a function that looks up template variables raises `TypeError`; C166 an unknown scope makes everything invalid; C167 YANG modules of another directory stay in the library.

## 6. Trusted base

* Lean 4.33 kernel. Axioms: at most `propext`, `Classical.choice`, `Quot.sound`; the list for each theorem is in `AXIOMS.txt`. No
  axioms of our own, no compiled evaluation (`decide +kernel` is used for concrete examples only and is checked by the kernel).
* That the model corresponds to the code, and the regex engine and string functions to CPython's: by reading, function by function, with the
  cited lines. The code was not run. The parser and the matcher of regular expressions were compared with Python's `re` on some
  thousand random expressions (outside of this repository); they differ after empty matches only, as said in Py/Regex.
* `ET.XML` and `ET.tostring` correspond to Model/XmlText (compared with Python on 18000 random texts and elements). Not in it, and rejected by the
  model: names with characters that are not ASCII or with colons, `xmlns`, XML declarations and document types.
* The specifications in `Spec/` say what the English properties say.
