{"id": "C01", "title": "List path accumulates every record in order", "statement": "When parse() produces several non-empty records for a group whose name ends with a single '*', the value at that path is the list that was there before followed by exactly those records, in the order they were found; nothing is lost, merged, duplicated or reordered.", "quantifier": "every existing results tree in which the path is absent or holds a list, every static path, every number and content of records", "why_tests_cant": "needs induction over the number of records and the depth of the path", "anchors": ["ttp/ttp.py:_results_class.save_curelements", "ttp/ttp.py:_results_class.dict_by_path", "ttp/ttp.py:_results_class.list_to_dict_fwd"]}
{"id": "C02", "title": "Plain path: one record is a dict, several are a list of all of them", "statement": "For a group name without path formatters, one non-empty record is stored as a dictionary at that path; n >= 2 non-empty records are stored as the list of all n in order.", "quantifier": "every static path, every n and every content of the records", "why_tests_cant": "the dict-to-list conversion happens on the second record and appending from the third on; all n must be covered", "anchors": ["ttp/ttp.py:_results_class.save_curelements", "ttp/ttp.py:_results_class.value_to_list"]}
{"id": "C03", "title": "'**' path merges into one dictionary and the first value wins", "statement": "For a group name ending with '**' the value stays a single dictionary; saving another record adds its new keys and never changes a value that is already there.", "quantifier": "every dictionary already at the path and every record", "why_tests_cant": "all overlaps of key sets", "anchors": ["ttp/ttp.py:_results_class.save_curelements"]}
{"id": "C04", "title": "Saving a record touches only its own path", "statement": "Adding a record at one path of the results leaves the value at every path that diverges from it exactly as it was.", "quantifier": "every results tree, every pair of diverging paths, every record, every path formatter", "why_tests_cant": "quantifies over all trees and all pairs of paths", "anchors": ["ttp/ttp.py:_results_class.save_curelements", "ttp/ttp.py:_results_class.dict_by_path", "ttp/ttp.py:_results_class.value_to_list"]}
{"id": "C05", "title": "The null path '_' never shows up in results", "statement": "A group path containing the null item '_' merges its record with the parent; the key '_' does not appear in the results (documented behaviour).", "quantifier": "every path with a null item and every results tree without the key '_'", "why_tests_cant": "depends on whether the parent record exists when the child is saved; all histories matter", "anchors": ["ttp/ttp.py:_results_class.dict_by_path", "ttp/ttp.py:_results_class.list_to_dict_fwd", "ttp/ttp.py:_results_class.value_to_list"]}
{"id": "C06", "title": "dynamic_path_key_to_int never loses results", "statement": "With dynamic_path_key_to_int=True numeric path items become integer keys and saving further records keeps everything saved before, as it does with the option off.", "quantifier": "every results tree, numeric path and sequence of records", "why_tests_cant": "failure needs two records on the same numeric key, for any nesting", "anchors": ["ttp/ttp.py:_results_class.list_to_dict_fwd", "ttp/ttp.py:_results_class.dict_by_path", "ttp/ttp.py:_results_class.value_to_list"]}
{"id": "C07", "title": "A child record attaches to the most recent parent record", "statement": "If the parent path holds a list of records, a child record is stored inside the last of them; all earlier parent records are unchanged.", "quantifier": "every non-empty parent list, every child path below it, every child record", "why_tests_cant": "all lengths of lists and depths", "anchors": ["ttp/ttp.py:_results_class.dict_by_path", "ttp/ttp.py:_results_class.value_to_list"]}
{"id": "C08", "title": "Late (tail) matches merge into the last record only", "statement": "A match that belongs to an already started group is merged recursively into the last record of that group's path: keys it does not mention keep their value, keys it mentions get the new value, earlier records are unchanged.", "quantifier": "every existing element and every late result", "why_tests_cant": "recursive merge over all nested dictionaries", "anchors": ["ttp/ttp.py:_results_class._merge_recursively", "ttp/ttp.py:_results_class.reconstruct_last_element", "ttp/ttp.py:_results_class.save_curelements"]}
{"id": "C09", "title": "A record whose path is blocked by a plain value changes nothing", "statement": "If a proper prefix of the path already holds a string or number, the record cannot be placed: no exception is raised, and the existing results stay as they were.", "quantifier": "every tree, path and record where a prefix of the path holds a scalar", "why_tests_cant": "all trees and blocking depths", "anchors": ["ttp/ttp.py:_results_class.dict_by_path", "ttp/ttp.py:_results_class.save_curelements"]}
{"id": "C10", "title": "Flat group: one record per valid start, with the lines that follow it", "statement": "For a group without children, functions or end markers, the records in the results are, in text order, one per valid start match; each holds the start match's values, then for every later line up to the next start match (valid or not) the values it adds, then the group defaults.", "quantifier": "every sequence of matches of the group, any length", "why_tests_cant": "a statement about the whole run of the results state machine on all match sequences", "anchors": ["ttp/ttp.py:_results_class.make_results", "ttp/ttp.py:_results_class.start", "ttp/ttp.py:_results_class.add", "ttp/ttp.py:_results_class.processgrp"]}
{"id": "C11", "title": "The first value matched for a variable in a record is kept", "statement": "Within one record a later line that matches an already captured variable (no joinmatches) never changes the captured value.", "quantifier": "every record and every sequence of later matches of the same group", "why_tests_cant": "all sequences", "anchors": ["ttp/ttp.py:_results_class.add"]}
{"id": "C12", "title": "Defaults fill exactly the variables that did not match", "statement": "Every saved record contains every variable that has a default; its value is the matched value if there was a match and the default otherwise; variables without default appear only if matched.", "quantifier": "every record and default dictionary", "why_tests_cant": "all overlaps of matched and default keys", "anchors": ["ttp/ttp.py:_results_class.processgrp", "ttp/ttp.py:_group_class.set_runs", "ttp/ttp.py:_group_class.update_runs"]}
{"id": "C13", "title": "After _end_ a group collects nothing until it starts again", "statement": "Once an _end_ line of a group ended it, no later non-start match of the group changes the results, until a valid start match of the same group.", "quantifier": "every state in which the group is ended and every following sequence of non-start matches of that group", "why_tests_cant": "all sequences and all states", "anchors": ["ttp/ttp.py:_results_class.end", "ttp/ttp.py:_results_class.make_results"]}
{"id": "C14", "title": "Lines after a rejected start are not attributed to anybody", "statement": "If the start line of a group is matched but rejected by a variable check, the following non-start lines of that group are dropped up to the next valid start; in particular they are not added to the previous record.", "quantifier": "every machine state and every sequence of non-start matches after the rejected start", "why_tests_cant": "all states and sequences", "anchors": ["ttp/ttp.py:_results_class.make_results", "ttp/ttp.py:_parser_class.parse.check_matches"]}
{"id": "C15", "title": "joinmatches keeps every match in text order", "statement": "For a variable with joinmatches (or _line_) the value in the record is all matched strings of that record joined in text order by the join character (newline by default).", "quantifier": "every sequence of matches of the variable within a record, every join character", "why_tests_cant": "unbounded number of matches", "anchors": ["ttp/ttp.py:_results_class.join"]}
{"id": "C16", "title": "Nothing below a rejected parent is reported", "statement": "While a group is ended or its start was rejected, matches of its child groups, at any depth, do not reach the results.", "quantifier": "every group tree and every sequence of matches", "why_tests_cant": "depends on depth of nesting and history of ended groups", "anchors": ["ttp/ttp.py:_results_class.make_results"]}
{"id": "C17", "title": "Competing matches on the same line are resolved by documented preference", "statement": "When several template lines match at the same position: _start_ lines beat start lines, start lines beat ordinary and _end_ lines, and _line_ is used only if nothing else matched; among equals a valid match of the group of the current record is preferred; if there is none, the first start line of a group below the current one or whose parent was started (for ordinary lines: of a group that was started), and else the last match of that rank.", "quantifier": "every list of competing matches and every machine state", "why_tests_cant": "all combinations of match kinds, orders and states", "anchors": ["ttp/ttp.py:_results_class.make_results"]}
{"id": "C18", "title": "A record rejected by a group function leaves no trace", "statement": "If any function of the group returns False for a record, the record is not saved: the results are the same as before, and the functions after it are not run.", "quantifier": "every chain of functions, every record and machine state", "why_tests_cant": "all function chains and positions of the rejecting function", "anchors": ["ttp/ttp.py:_results_class.processgrp", "ttp/ttp.py:_results_class.start"]}
{"id": "C19", "title": "Named template variables are saved at their path", "statement": "For template variables with a name attribute, every variable of the tag is present under that path in the results whenever at least one group matched, and nothing is saved when no group matched.", "quantifier": "every set of variables and paths", "why_tests_cant": "all combinations of paths; order independence", "anchors": ["ttp/ttp.py:_results_class.save_vars", "ttp/ttp.py:_results_class.make_results"]}
{"id": "C20", "title": "Records are formed in text order, whatever the order of template lines", "statement": "The matches of a group are processed in ascending position of the text, each position once; matches on the same position stay together in the order template lines were tried.", "quantifier": "every set of regexes and every text", "why_tests_cant": "all interleavings of match positions", "anchors": ["ttp/ttp.py:_parser_class.parse"]}
{"id": "C21", "title": "A match is dropped at the first check that fails", "statement": "The functions of a match variable run left to right; if one returns False the value is discarded and later functions do not run; for a non-start line the whole line match is dropped, for a start line it is kept as a rejected start.", "quantifier": "every chain of functions, every regex match", "why_tests_cant": "all chains", "anchors": ["ttp/ttp.py:_parser_class.parse.check_matches"]}
{"id": "C22", "title": "No fabricated values", "statement": "For templates without match or group functions every string in a record comes from the text of the input: it is a contiguous piece of it, or a default, or pieces joined by joinmatches.", "quantifier": "every template of that kind and every text", "why_tests_cant": "a provenance invariant over the whole pipeline", "anchors": ["ttp/ttp.py:_parser_class.parse", "ttp/ttp.py:_results_class.make_results"]}
{"id": "C23", "title": "Child groups only see the text of their parent", "statement": "If the start of a group is found in its window, every match recorded for a child group lies at or after the first start match and inside of the window, and not after the end of the group if an _end_ match is effective. (Effective: it ends beyond all start matches, where the code compares positions counted from different points. If the start is not found, children with a default on a start line are searched for in the whole window of the parent.)", "quantifier": "every group tree and every text", "why_tests_cant": "recursion over the group tree with moving bounds", "anchors": ["ttp/ttp.py:_parser_class.parse.run_re"]}
{"id": "C24", "title": "A group without matches yields its defaults once, or nothing", "statement": "If no start line of a group matches: with a default on a start variable the result contains exactly one defaults-only match for it, otherwise the group and its non-default children contribute nothing.", "quantifier": "every group tree and text without start match", "why_tests_cant": "recursion over children; free position search", "anchors": ["ttp/ttp.py:_parser_class.parse.run_re"]}
{"id": "C25", "title": "A line rendered from a template line parses back to the same values", "statement": "Take a template line of literal words and {{ variables }} separated by blanks; replace every variable by a non-empty word without whitespace; parsing the resulting line captures for every variable exactly that word.", "quantifier": "every template line of that form, every assignment of words", "why_tests_cant": "a round trip over all lines and values", "anchors": ["ttp/ttp.py:_variable_class.form_regex", "ttp/ttp.py:_group_class.get_regexes", "ttp/patterns/get_pattern.py:WORD"]}
{"id": "C26", "title": "Runs of blanks in a template line match any run of blanks", "statement": "Where the template line has one or more spaces or tabs between words, the text may have any non-empty run of spaces and tabs (unless _exact_space_); trailing blanks in the text are ignored.", "quantifier": "every run of blanks in template and text", "why_tests_cant": "unbounded runs", "anchors": ["ttp/ttp.py:_variable_class.form_regex"]}
{"id": "C27", "title": "Digits in a template line stand for any number", "statement": "A run of digits in the literal part of a template line matches any non-empty run of digits in the text; with _exact_ it matches only itself.", "quantifier": "every digit run in template and text", "why_tests_cant": "unbounded digit strings", "anchors": ["ttp/ttp.py:_variable_class.form_regex"]}
{"id": "C28", "title": "A template line matches whole lines only", "statement": "A match of a template line starts right after a newline and ends at the end of a line; it never matches part of a line.", "quantifier": "every template line and every text", "why_tests_cant": "all texts", "anchors": ["ttp/ttp.py:_variable_class.form_regex"]}
{"id": "C29", "title": "A default pattern captures a non-empty word without whitespace", "statement": "A variable without pattern captures a non-empty string without whitespace.", "quantifier": "every regex containing such a variable and every text", "why_tests_cant": "all texts", "anchors": ["ttp/patterns/get_pattern.py:WORD", "ttp/ttp.py:_variable_class.form_regex"]}
{"id": "C30", "title": "Any variable name becomes a valid capture name", "statement": "For every non-empty variable name the internal capture name is a valid identifier (not empty, letters, digits and underscores, no digit first); valid identifiers are left as they are.", "quantifier": "every non-empty variable name", "why_tests_cant": "all strings", "anchors": ["ttp/ttp.py:_variable_class.__init__"]}
{"id": "C31", "title": "add_input keeps every distinct datum once, in order", "statement": "After any sequence of add_input calls for one input, its data are exactly the distinct data items given, each once, in the order of first appearance.", "quantifier": "every sequence of add_input calls", "why_tests_cant": "all histories", "anchors": ["ttp/ttp.py:ttp.add_input", "ttp/ttp.py:_template_class.update_input", "ttp/ttp.py:_input_class.load_data"]}
{"id": "C32", "title": "set_input replaces the inputs of the named template only", "statement": "set_input leaves for the named template exactly the new input, whatever inputs it had before, and does not change inputs of other templates; it equals clear_input followed by add_input.", "quantifier": "every parser state, template name and data", "why_tests_cant": "all histories of calls", "anchors": ["ttp/ttp.py:ttp.set_input", "ttp/ttp.py:ttp.clear_input", "ttp/ttp.py:ttp.add_input"]}
{"id": "C33", "title": "Per-input results: one entry per datum, in order, appended", "statement": "parse(one=True) with results='per_input' appends to the template results exactly one entry per datum in the order of inputs and data; results of earlier parse calls stay in front unchanged.", "quantifier": "every number of templates, inputs, data and parse calls", "why_tests_cant": "induction over histories", "anchors": ["ttp/ttp.py:ttp.__parse_in_one_process", "ttp/ttp.py:_template_class.form_results"]}
{"id": "C34", "title": "Per-template results are combined and replaced", "statement": "With results='per_template' parse(one=True) leaves one combined structure, obtained by feeding each datum the structure built so far; a second parse replaces instead of appending.", "quantifier": "every sequence of data and parse calls", "why_tests_cant": "induction over data", "anchors": ["ttp/ttp.py:ttp.__parse_in_one_process", "ttp/ttp.py:_template_class.form_results"]}
{"id": "C35", "title": "Multiprocess parsing yields the same results in some order", "statement": "For every schedule of the worker processes parse(multi=True) collects exactly one result per datum, and as a multiset these are the results parse(one=True) produces, when parsing a datum does not depend on what was parsed before it.", "quantifier": "every number of workers, every number of data, every interleaving of worker steps", "why_tests_cant": "schedules cannot be enumerated by tests", "anchors": ["ttp/ttp.py:ttp.__parse_in_multiprocess", "ttp/ttp.py:_worker.run"]}
{"id": "C36", "title": "Multiprocess parsing agrees with single process for per_template results", "statement": "parse(multi=True) and parse(one=True) give the same combined results for a template with results='per_template'.", "quantifier": "every data list and schedule", "why_tests_cant": "schedules", "anchors": ["ttp/ttp.py:ttp.__parse_in_multiprocess", "ttp/ttp.py:_template_class.form_results"]}
{"id": "C37", "title": "Custom functions do not hide built-in functions in worker processes", "statement": "After add_function in a scope, every function available to parse(one=True) in that scope is also available to parse(multi=True).", "quantifier": "every set of built-in and custom functions", "why_tests_cant": "all tables", "anchors": ["ttp/ttp.py:ttp.add_function", "ttp/ttp.py:_worker.__init__"]}
{"id": "C38", "title": "Multiprocess parsing never gets stuck", "statement": "Every schedule of parse(multi=True) reaches the point where all results are collected, whatever the data.", "quantifier": "every number of workers and data, every schedule, including data on which parsing raises", "why_tests_cant": "liveness over all schedules", "anchors": ["ttp/ttp.py:ttp.__parse_in_multiprocess", "ttp/ttp.py:_worker.run"]}
{"id": "C39", "title": "parse() picks the process mode as documented", "statement": "one=True runs in one process, multi=True in several, both raise SystemExit; otherwise several processes are used exactly if the data are larger than the threshold and there are at least two data items.", "quantifier": "every combination of flags, sizes and counts", "why_tests_cant": "all sizes", "anchors": ["ttp/ttp.py:ttp.parse", "ttp/ttp.py:ttp._calculate_overall_data_size"]}
{"id": "C40", "title": "result() structures agree with each other", "statement": "result(structure='list') lists the stored results of the selected templates in loading order, 'flat_list' is the concatenation of these results with lists unpacked one level, 'dictionary' maps each non-empty template name to its results (last one wins); filtering by names keeps exactly the named templates; reading results never changes them.", "quantifier": "every list of templates, names and results", "why_tests_cant": "all shapes of results", "anchors": ["ttp/ttp.py:ttp.result"]}
{"id": "C41", "title": "add_vars reaches all templates and the newest value wins", "statement": "After any sequence of add_vars calls each template sees for every variable the value of the last call that set it; other variables are untouched.", "quantifier": "every history of add_vars and every variable", "why_tests_cant": "all histories", "anchors": ["ttp/ttp.py:ttp.add_vars", "ttp/ttp.py:_template_class.add_vars"]}
{"id": "C42", "title": "clear_result clears exactly the named templates", "statement": "clear_result(names) empties the results of the named templates (all if no names) and leaves the others unchanged; a following parse gives the same results as on a fresh parser.", "quantifier": "every parser state and name list", "why_tests_cant": "all histories", "anchors": ["ttp/ttp.py:ttp.clear_result"]}
{"id": "C43", "title": "Variables recorded while parsing one datum do not leak into the next", "statement": "Variables recorded with record/count(var=) start from the template variables for every datum; only global variables carry over to later data and later parse calls.", "quantifier": "every sequence of data and recordings", "why_tests_cant": "all histories", "anchors": ["ttp/ttp.py:_parser_class.set_data", "ttp/match/record.py:record", "ttp/match/count.py:count"]}
{"id": "C44", "title": "Groups are routed to inputs as declared", "statement": "An input is parsed by the groups that name it in their input attribute if there are any; otherwise by the groups without input attribute that the input selects by name, or all of those for 'all'; each group once, in template order.", "quantifier": "every set of groups and inputs", "why_tests_cant": "all combinations", "anchors": ["ttp/ttp.py:_input_class.get_attributes.extract_groups"]}
{"id": "C45", "title": "Unknown outputs of a group are dropped", "statement": "After loading a template every output name of a group is either resolved to the output object with that name or removed; parsing never trips over an unresolved name.", "quantifier": "every list of output names and outputs", "why_tests_cant": "list mutation during iteration only fails for particular adjacent positions", "anchors": ["ttp/ttp.py:_template_class.update_groups_with_outputs"]}
{"id": "C46", "title": "The function cache is only used for its own version", "statement": "Whatever cache file is found - none, unreadable, of another TTP or Python version - the parser ends up with the function table of the installed version, and from the third start on the cache is used.", "quantifier": "every content of the cache file and every history of starts", "why_tests_cant": "all cache contents and histories", "anchors": ["ttp/ttp.py:lazy_import_functions"]}
{"id": "C47", "title": "Anonymous group results are merged with named group results", "statement": "For every datum the entry in the results is the plain result dictionary if there is no anonymous group; otherwise a list: the anonymous records followed by the remaining dictionary if it is not empty.", "quantifier": "every parse result", "why_tests_cant": "all shapes", "anchors": ["ttp/ttp.py:_template_class.form_results"]}
{"id": "C48", "title": "unrange expands ranges exactly", "statement": "unrange applied to a list of numbers and ascending ranges yields exactly the listed numbers with every range a-b replaced by a, a+1, ..., b, in order; text without the range character is unchanged.", "quantifier": "every list of items and ranges, every pair of distinct non-digit separators", "why_tests_cant": "unbounded ranges and lists", "anchors": ["ttp/match/unrange.py:unrange"]}
{"id": "C49", "title": "to_cidr inverts a netmask", "statement": "to_cidr of the dotted netmask of prefix length n is n; for any dotted quad of numbers it is the number of one bits.", "quantifier": "every dotted number list", "why_tests_cant": "all octets", "anchors": ["ttp/match/ip.py:to_cidr"]}
{"id": "C50", "title": "mac_eui normalises and is idempotent", "statement": "mac_eui gives for an alphanumeric MAC (after removing . : -) lower case pairs separated by colons, padded with zeros to 12 digits, no digit lost; other data are unchanged; applying it twice equals applying it once.", "quantifier": "every string", "why_tests_cant": "all strings", "anchors": ["ttp/match/mac_eui.py:mac_eui"]}
{"id": "C51", "title": "item never fails on non-empty data and clamps the index", "statement": "item(i) on non-empty data returns element i if it is in range (negative counts from the end), the last element if i is too large and the first if it is too small.", "quantifier": "every non-empty sequence and every integer", "why_tests_cant": "all indexes", "anchors": ["ttp/match/item.py:item"]}
{"id": "C52", "title": "truncate keeps the first n words", "statement": "truncate(n) returns the first n blank-separated words of the text (the whole text if it has fewer); a negative count leaves out that many words at the end; the result is a prefix of the text and truncating twice equals truncating to the smaller count.", "quantifier": "every text and count", "why_tests_cant": "all texts", "anchors": ["ttp/match/string.py:truncate"]}
{"id": "C53", "title": "contains / containsall / exclude / excludeall decide on matched values only", "statement": "contains keeps a record iff the first listed variable present is not at its default; containsall iff all listed variables are present and not at default; exclude rejects iff some listed variable without default is present; excludeall iff all listed are; none of them changes the record.", "quantifier": "every record, defaults and list of names", "why_tests_cant": "all combinations", "anchors": ["ttp/group/contains.py", "ttp/group/containsall.py", "ttp/group/exclude.py", "ttp/group/excludeall.py"]}
{"id": "C54", "title": "expand builds the nested structure named by dotted keys", "statement": "After expand, following the dot-separated parts of every original key leads to its value, provided no key is a proper prefix of another; nothing else is in the structure.", "quantifier": "every dictionary with prefix-free dotted keys", "why_tests_cant": "all key sets", "anchors": ["ttp/group/expand.py:expand"]}
{"id": "C55", "title": "dict_to_list keeps every entry and its key", "statement": "dict_to_list turns a dictionary of dictionaries into the list of those dictionaries in order, each with its key added under key_name; data of other shape are returned unchanged.", "quantifier": "every dictionary of dictionaries and key name", "why_tests_cant": "all sizes", "anchors": ["ttp/output/transform.py:dict_to_list"]}
{"id": "C56", "title": "The table formatter loses no cell", "statement": "Every row of the table has the width of the header; the header is the sorted set of all keys when not given; the cell under header h holds the record's value for h or the missing value.", "quantifier": "every list of records and headers", "why_tests_cant": "all records", "anchors": ["ttp/formatters/table_formatter.py:table"]}
{"id": "C57", "title": "CSV output can be read back", "statement": "Reading the csv formatter's output with a CSV reader using the same separator and quote gives back the table, if no cell contains the quote character.", "quantifier": "every table of strings", "why_tests_cant": "round trip over all tables", "anchors": ["ttp/formatters/csv_formatter.py:csv_formatter"]}
{"id": "C58", "title": "CSV lookup tables index every row by its key column", "statement": "load_csv maps the key column value of each row to the remaining columns of the row; later rows with the same key replace earlier ones.", "quantifier": "every csv table and key column", "why_tests_cant": "all tables", "anchors": ["ttp/utils/loaders.py:load_csv"]}
{"id": "C59", "title": "count counts matches", "statement": "After n matches of a variable with count(var=v, globvar=g), v has grown by n within the datum and g by n over all data.", "quantifier": "every number and interleaving of matches", "why_tests_cant": "unbounded", "anchors": ["ttp/match/count.py:count"]}
{"id": "C60", "title": "Numeric comparison checks are consistent", "statement": "For digit strings greaterthan(v) holds iff the number is larger, lessthan iff smaller, never both; for other data both reject; isdigit and notdigit are complementary.", "quantifier": "every pair of strings", "why_tests_cant": "all strings", "anchors": ["ttp/match/string.py"]}
{"id": "C61", "title": "cidr_match tells whether the networks share an address", "statement": "cidr_match(prefix) returns True exactly if the address or network of the data and the prefix have an address in common; for a single address: iff the address is inside the prefix.", "quantifier": "every pair of networks", "why_tests_cant": "all addresses and prefix lengths", "anchors": ["ttp/match/ip.py:cidr_match"]}
{"id": "C62", "title": "Outputs return the data unchanged unless told to return the result", "statement": "An output whose condition does not hold, or that does not use the self returner, hands on the data it was given; otherwise it hands on the data passed through its functions in order and then the formatter.", "quantifier": "every chain of functions, formatter and condition", "why_tests_cant": "all chains", "anchors": ["ttp/ttp.py:_outputter_class.run"]}
{"id": "C63", "title": "Variables of one line are kept apart", "statement": "Two variables of a template line with different names capture their values separately.", "quantifier": "all pairs of variable names", "why_tests_cant": "The capture name is derived from the name; clashes depend on pairs of names no test enumerates.", "anchors": ["ttp/ttp.py:_variable_class.__init__ 1994"]}
{"id": "C64", "title": "What a line does is decided by its variables", "statement": "A template line starts the group if one of its variables says so; otherwise its last variable other than ignore decides whether its values are added, joined or end the group; a variable with joinmatches always joins.", "quantifier": "all lists of variables of a line", "why_tests_cant": "All orders and kinds of variables on a line.", "anchors": ["ttp/ttp.py:_group_class.get_regexes 1850-1853"]}
{"id": "C65", "title": "Every template line has exactly one role", "statement": "Each line of a group with variables is exactly one of end line, start line or ordinary line, in template order: _end_ lines end; otherwise the first line, _start_ lines and, with method table, all lines start the group; lines after child groups never start it.", "quantifier": "all lists of template lines", "why_tests_cant": "All lists of lines and combinations of actions.", "anchors": ["ttp/ttp.py:_group_class.get_regexes 1866-1884"]}
{"id": "C66", "title": "Checks and conversions leave variables alone", "statement": "A built-in match function other than count, record (and gpvlookup with record) leaves template variables and global variables as they were, whatever its arguments and the value.", "quantifier": "every call of such a function in every state", "why_tests_cant": "all functions, arguments, values and states", "anchors": ["ttp/match/string.py", "ttp/match/to.py", "ttp/match/unrange.py", "ttp/ttp.py:check_matches"]}
{"id": "C67", "title": "An error inside a match function is not hidden", "statement": "If a macro called for a match variable raises an exception, parsing does not go on as if the macro had accepted the value.", "quantifier": "every macro, value, exception", "why_tests_cant": "all exceptions at all points", "anchors": ["ttp/ttp.py:check_matches", "ttp/match/macro.py:macro"]}
{"id": "C68", "title": "contains accepts a record if any listed variable matched", "statement": "A group with contains=\"a, b\" keeps a record iff at least one of the listed variables matched; exclude drops it iff one of them matched (documented). With defaults this is false of the code: the first listed variable that is present decides, and a defaulted variable is always present.", "quantifier": "every record, defaults and list of names", "why_tests_cant": "all combinations and orders", "anchors": ["ttp/group/contains.py:contains", "ttp/group/exclude.py:exclude"]}
{"id": "C69", "title": "record and set transport values between groups", "statement": "After record(source, target) in one group, set(target, name) in any later group puts exactly the recorded value under name; other variables are untouched; recording a variable that did not match changes nothing; set of an unknown name gives the default or the name itself.", "quantifier": "every state, record and names", "why_tests_cant": "histories of records and sets", "anchors": ["ttp/group/record.py:record", "ttp/group/set_.py:set_func"]}
{"id": "C70", "title": "del removes exactly the listed variables", "statement": "del(names) removes the listed variables and keeps everything else in value and order.", "quantifier": "every record and list of names", "why_tests_cant": "all records", "anchors": ["ttp/group/delete.py:delete_func"]}
{"id": "C71", "title": "to_int only converts listed values", "statement": "to_int keeps all variables in order, leaves unlisted ones unchanged, converts listed numeric strings to the denoted number and leaves other values as they are. (Running it twice is not the same as once: floats get truncated.)", "quantifier": "every record and list of different names", "why_tests_cant": "all records and values", "anchors": ["ttp/group/to_converters.py:to_int"]}
{"id": "C72", "title": "items2dict builds one key-value pair", "statement": "items2dict(key, value) drops records without both variables, and otherwise replaces both by one entry named by the value of key; everything else is kept.", "quantifier": "every record and two different names", "why_tests_cant": "all records", "anchors": ["ttp/group/items2dict.py:items2dict"]}
{"id": "C73", "title": "group lookup replaces, adds or merges only on a hit", "statement": "Group lookup leaves records without table entry unchanged; on a hit it replaces the value, or adds the field, or merges the entry.", "quantifier": "every record, table at every depth and action", "why_tests_cant": "all tables and records", "anchors": ["ttp/group/lookup.py:lookup"]}
{"id": "C74", "title": "equal, exclude_val and contains_val compare with the value or the template variable", "statement": "equal keeps the record iff the variable equals the value (or the template variable of that name); exclude_val is its opposite; contains_val keeps iff the value is part of the text.", "quantifier": "every record, name, value, variables", "why_tests_cant": "all values", "anchors": ["ttp/group/equal.py", "ttp/group/exclude_val.py", "ttp/group/contains_val.py"]}
{"id": "C75", "title": "itemize turns records into list items", "statement": "itemize(key) makes the record the value of key and saves it into a list at the path of the group, whatever number of asterisks the path has; records without key are dropped; the values of the record become placeholders of paths. itemize(key, path) adds the value to the list at that path and keeps the record as it is.", "quantifier": "every record and path", "why_tests_cant": "all paths", "anchors": ["ttp/group/itemize.py:itemize"]}
{"id": "C76", "title": "group macros run in order on each other's results", "statement": "macro with several names is the same as the macros one after the other; False drops the record, True and None keep it, other values replace it, unknown names do nothing.", "quantifier": "every list of macros and record", "why_tests_cant": "all macros", "anchors": ["ttp/group/macro.py:macro"]}
{"id": "C77", "title": "traverse finds the data at the path", "statement": "traverse returns what the path leads to, for lists from each item; a missing last name raises KeyError if strict and gives an empty dictionary otherwise.", "quantifier": "every data, path and mode", "why_tests_cant": "all structures and depths", "anchors": ["ttp/output/transform.py:traverse"]}
{"id": "C79", "title": "meaningless template lines make no difference", "statement": "Blank lines, comment lines (##) and lines without a variable can be added to or removed from a template anywhere without any effect on the loaded groups, hence on results.", "quantifier": "every template tree and every placement of such lines", "why_tests_cant": "all templates and positions", "anchors": ["ttp/ttp.py:_group_class.get_regexes", "ttp/ttp.py:_group_class.get_children"]}
{"id": "C80", "title": "the name of a group decides where it saves", "statement": "Each group, at any depth, saves to the path its name tells: relative names continue the path of the parent, names with a leading slash are absolute, groups without a name save where the parent does, top groups without a name into the anonymous list.", "quantifier": "every tree of groups, names and path character", "why_tests_cant": "unbounded nesting", "anchors": ["ttp/ttp.py:_group_class.get_attributes", "ttp/ttp.py:_group_class.set_anonymous_path"]}
{"id": "C81", "title": "groups do not share an identity", "statement": "Two groups of a template never share the identity by which matches are told apart (a rejected or ended group does not silence another one).", "quantifier": "every pair of groups of every template", "why_tests_cant": "all templates", "anchors": ["ttp/ttp.py:_group_class.get_attributes", "ttp/ttp.py:_results_class.make_results"]}
{"id": "C82", "title": "defaults declared in a template", "statement": "A name has as default the last default declared for it in its group (default(), or set() on a line without text); with a default text on the group, every other variable of the group has that text.", "quantifier": "every group, its lines, variables and functions", "why_tests_cant": "all templates", "anchors": ["ttp/ttp.py:_variable_class.extract_functions", "ttp/ttp.py:_variable_class.__init__"]}
{"id": "C83", "title": "a dictionary as default of a group", "statement": "With default naming a template variable that is a dictionary, its keys have its values as defaults and all other names what the lines declare.", "quantifier": "every group and dictionary", "why_tests_cant": "all templates", "anchors": ["ttp/ttp.py:_group_class.get_regexes"]}
{"id": "C84", "title": "functions of a pipe are read in order", "statement": "The functions written in a pipe of a variable, or as attribute of a group, are read as these functions in this order with the arguments written in the brackets, whatever white space is around the pipes.", "quantifier": "every pipe of functions", "why_tests_cant": "all pipes and arguments", "anchors": ["ttp/utils/get_attributes.py:get_attributes"]}
{"id": "C78", "title": "a simple template means what it says", "statement": "A template with one group whose lines are words and plain variables is loaded without error, and parsing any texts in whose lines at most one template line can be read gives, per text and in order, the list of the records under the name of the group: a record starts at each line that reads as the first template line, with the values of the variables of this line, and has the values of the lines that follow up to the next start; text without such a line gives nothing.", "quantifier": "every such template, every text, every number of inputs, all functions and variables around", "why_tests_cant": "all templates and texts; composition of loader, line compiler, search, results machine and parser object", "anchors": ["ttp/ttp.py:_group_class", "ttp/ttp.py:_variable_class", "ttp/ttp.py:_parser_class", "ttp/ttp.py:_results_class", "ttp/ttp.py:ttp.parse"]}
{"id": "C85", "title": "matches of nested groups become the tree of records", "statement": "For groups of any nesting with list paths and without functions: each start opens a record that goes into the last record of the parent group; lines of the group of the newest record are added to it, first value kept; a line of an outer group that is still open overwrites values of its last record; a line of a child group before its start has no effect; failed checks and _end_ lines switch a group off until its next start; an _end_ before any record raises IndexError. The results are exactly this tree.", "quantifier": "every tree of groups, every sequence of matches, all values and defaults", "why_tests_cant": "all interleavings of matches of all groups", "anchors": ["ttp/ttp.py:_results_class.make_results", "ttp/ttp.py:_results_class.start", "ttp/ttp.py:_results_class.add", "ttp/ttp.py:_results_class.end", "ttp/ttp.py:_results_class.save_curelements", "ttp/ttp.py:_results_class.dict_by_path", "ttp/ttp.py:_results_class.reconstruct_last_element"]}
{"id": "C86", "title": "group functions run in order on each other's results", "statement": "The functions of a group run in the order written, each on what the one before returned, the first on the record with its defaults; what the last returns is saved; if one returns False the record is not saved and the later ones do not run.", "quantifier": "every record and list of functions that work on the record", "why_tests_cant": "all lists of functions and records", "anchors": ["ttp/ttp.py:_results_class.processgrp"]}
{"id": "C87", "title": "a template of nested groups, from its XML to the results", "statement": "For any tree of <group name=\"x*\"> tags with plain lines: loading succeeds, and for every text in which each line can be read in at most one way, the results are the tree described by the template: a start line of a child group counts only after its parent was found, an ordinary line only after its own group was found, each record is put into the newest record of the parent group; the matches of the first top group come before those of the second. The meaning is unique, and parsing with a ttp object gives it for each text of each input in order.", "quantifier": "every nested template of plain lines, every text without ambiguous lines, every number of inputs", "why_tests_cant": "all templates and all texts", "anchors": ["ttp/ttp.py:_group_class", "ttp/ttp.py:_variable_class", "ttp/ttp.py:_parser_class.parse", "ttp/ttp.py:_results_class.make_results", "ttp/ttp.py:ttp.parse"]}
{"id": "C88", "title": "order of the tags of a template", "statement": "Only the order of tags of the same kind matters: templates with the same attributes and the same vars, groups, outputs, inputs, lookups and templates (each in their order) load alike, whatever unknown or doc tags and text are between them.", "quantifier": "every template, object and filter", "why_tests_cant": "all orders of all tags", "anchors": ["ttp/ttp.py:_template_class.collect_tags", "ttp/ttp.py:_template_class.parse_hierarch_tmplt"]}
{"id": "C89", "title": "template variables", "statement": "A variable has the value of the last vars tag that sets it, else the one of the parser object; if the value is the name of a variable function it becomes a variable with that function; vars tags with a name put the names of their variables under that path of the results, in order. (A named vars tag without text makes loading fail.)", "quantifier": "every template without child templates, every loader", "why_tests_cant": "all sequences of tags", "anchors": ["ttp/ttp.py:_template_class.parse_vars", "ttp/ttp.py:_template_class.get_var_functions"]}
{"id": "C90", "title": "templates inside of a template", "statement": "A template with templates inside is the same as these added one by one, numbered unless they have a name, with the base path of the outer one; filters choose by name if the name of the outer template is among them. (A filter that only names an inner template loads nothing; templates two levels down and groups beside templates are lost.)", "quantifier": "every template, object and filters", "why_tests_cant": "all nestings", "anchors": ["ttp/ttp.py:ttp.add_template", "ttp/ttp.py:_template_class.parse_template", "ttp/ttp.py:_template_class.load_template_xml"]}
{"id": "C91", "title": "input tags with text", "statement": "The inputs of a template are the distinct names of its input tags in order; an input has the distinct texts of the tags of its name in order and is for the groups each of these tags is for.", "quantifier": "every template with input tags load=\"text\"", "why_tests_cant": "all sequences of tags and group attributes", "anchors": ["ttp/ttp.py:_template_class.update_input", "ttp/ttp.py:_input_class"]}
{"id": "C92", "title": "inputs that only groups name", "statement": "An input without tag that groups name is read from the file or directory of that name after the base path and is for exactly these groups in order; an input that neither a tag nor a group names does not exist.", "quantifier": "every template with input tags load=\"text\", every file system", "why_tests_cant": "all templates", "anchors": ["ttp/ttp.py:_template_class.update_inputs_with_groups"]}
{"id": "C93", "title": "From the template element to the results", "statement": "For a template whose groups are name* groups of plain lines (nested in any way) and whose input tags carry texts, adding the template, then adding more texts with add_input and parsing gives one result: the list of what the groups mean for each text, inputs in the order in which they were first named, the distinct texts of an input in order.", "quantifier": "every group tree, every list of text input tags, every list of add_input calls, every text each line of which fits at most one template line", "why_tests_cant": "Tests run a handful of templates and texts; the composition of loader, inputs and parser has to hold for all of them at once", "anchors": ["ttp/ttp.py: ttp.add_template, ttp.add_input, ttp.parse, ttp.result", "ttp/ttp.py: _template_class.load_template_xml", "ttp/ttp.py: _parser_class.parse"]}
{"id": "C94", "title": "Group names with placeholders put each record under its own key", "statement": "For a group name that contains {{ name }} placeholders in its path, each record is saved at the path obtained by putting the record's value for the placeholder (taken out of the record), else the value used last, else the template variable; a record for which some placeholder has no value is not saved. In particular with a path of plain names followed by one placeholder the results are exactly the dictionary whose keys are the filled items in the order they are first met, each with its record or the list of its records.", "quantifier": "every list of path items with at most one placeholder per item, every list of matches of the group, every values without backslash, every template variables", "why_tests_cant": "the path depends on the values of every earlier record (cache) and on the key history of the results", "anchors": ["ttp/ttp.py:_results_class.form_path", "ttp/ttp.py:_results_class.save_curelements", "ttp/ttp.py:_results_class.dict_by_path", "ttp/ttp.py:_results_class.value_to_list"]}
{"id": "C95", "title": "A template without tags", "statement": "ttp(data, template) with a template that is only lines of text, then parse(): the result is a list with one entry per text: the record if the text has one, the list of records if it has several, an empty dictionary if it has none. Blank lines, comments and lines without variables in the template make no difference.", "quantifier": "every list of template lines of words and plain variables, every template text with these lines, every texts in every inputs in which no line fits two template lines, all template variables without getters", "why_tests_cant": "the loader, line compiler, search, results machine and result forming all take part, for unbounded texts", "anchors": ["ttp/ttp.py:ttp.__init__", "ttp/ttp.py:ttp.add_template", "ttp/ttp.py:_template_class.construct_etree", "ttp/ttp.py:_template_class.form_results"]}
{"id": "C96", "title": "Extend tags stand for the elements of the template they name", "statement": "A template with extend tags, given as text or as a path, is loaded exactly as the template in which every extend tag is replaced by the elements of the named file that its inputs/vars/groups/lookups/outputs attributes choose (by name, groups also by number), recursively, also inside group tags; a named template that is plain text is appended to the text of the group around the tag; a tag that names nothing that exists raises FileNotFoundError.", "quantifier": "all template trees, files, filter attributes, nesting depths and macros", "why_tests_cant": "the expansion is recursive through an arbitrary tree of files; tests try a few files, and the loop changes the list it walks over, so that mistakes show only for particular neighbours", "anchors": ["ttp/ttp.py:_template_class.handle_extend", "ttp/ttp.py:_template_class.filter_extend", "ttp/utils/loaders.py:load_files"]}
{"id": "C97", "title": "A template that extends itself never loads", "statement": "If a template extends a template that extends a template and so on without end (in particular itself), adding it raises an error for every bound on the recursion; it is never loaded partly.", "quantifier": "all sets of files with such a cycle, all recursion limits", "why_tests_cant": "no finite run shows that no limit is enough", "anchors": ["ttp/ttp.py:_template_class.handle_extend"]}
{"id": "C98", "title": "Groups with outputs of their own", "statement": "A group whose output attribute names outputs is kept out of the results of the other groups, which are what they are without it; what it finds in the text becomes a separate result, made by its outputs in order of the results the text has for a template with this group only, and these results follow the others in the order of the groups.", "quantifier": "all templates, texts, variables and groups with any outputs, for match and group functions that change no variables", "why_tests_cant": "Unit tests check one group with one output; which results a group reaches must hold for every mixture of groups with and without outputs and every text.", "anchors": ["ttp/ttp.py:_parser_class.parse", "ttp/ttp.py:_template_class.update_groups_with_outputs"]}
{"id": "C99", "title": "Tables under a line of headings", "statement": "A group with one line \"Port   Name   Status {{ _headers_ }}\" loads, and parsing any text gives one record per row of the text, in order: the cells are cut at the columns where the headings begin (the first column reaches from the left edge, a tab in the indent counts as four), the last cell is the rest of the line, white space around cells is removed; a line is a row exactly if it reaches into the last mandatory column (columns(n), or all but two) and no cell contains the name of its own column; nothing else is lost, added or reordered", "quantifier": "all headings, indents and gaps, all numbers of columns, all texts, all variables and group functions around", "why_tests_cant": "the number of headings, widths, cells and lines is unbounded; tests show a few tables", "anchors": ["ttp/ttp.py:_variable_class.form_regex", "ttp/ttp.py:_group_class.get_regexes", "ttp/ttp.py:_parser_class.parse", "ttp/match/string.py:exclude"]}
{"id": "C100", "title": "replaceall replaces exactly the listed texts", "statement": "replaceall(new, old1, ...) replaces every occurrence of each text an argument stands for, one argument after the other; a name of a template variable stands for the texts in that list or dictionary; with one argument the text is removed", "quantifier": "all matched texts, all argument lists, all template variables", "why_tests_cant": "texts, overlaps of occurrences and chains of replacements are unbounded", "anchors": ["ttp/match/string.py:replaceall"]}
{"id": "C101", "title": "append, prepend and join", "statement": "append and prepend add a text, or the value of the template variable of that name, at the end or the beginning of a string or list; join writes a list of strings with a separator", "quantifier": "all values, texts, variables", "why_tests_cant": "values and variables are unbounded", "anchors": ["ttp/match/string.py:append", "ttp/match/string.py:prepend", "ttp/match/string.py:join"]}
{"id": "C102", "title": "set, let and copy", "statement": "set gives the match the value of the variable (or the text) iff the matched text is the line; let(name, value) and copy(name) add a variable, let(value) replaces the match", "quantifier": "all texts, lines, values, variables", "why_tests_cant": "values and variables are unbounded", "anchors": ["ttp/match/set_.py:set_func", "ttp/match/let.py:let", "ttp/match/copy_.py:copy_func"]}
{"id": "C103", "title": "checks of matched texts", "statement": "contains holds iff one of the texts occurs in the match, exclude iff the text does not, equal and notequal compare; void rejects; raise raises; to_int converts numbers only; the value is kept by checks", "quantifier": "all texts and arguments", "why_tests_cant": "texts are unbounded", "anchors": ["ttp/match/string.py:contains", "ttp/match/string.py:exclude", "ttp/match/string.py:equal", "ttp/match/to.py:to_int"]}
{"id": "C104", "title": "lookup tables for matched values", "statement": "lookup replaces a match by the entry of the table at a dotted path or adds it as a new variable and leaves unknown texts alone; rlookup uses the first key that occurs in the text; gpvlookup the first key with a glob pattern that fits", "quantifier": "all tables, paths, texts", "why_tests_cant": "tables are unbounded", "anchors": ["ttp/match/lookup.py:lookup", "ttp/match/lookup.py:rlookup", "ttp/match/lookup.py:gpvlookup"]}
{"id": "C105", "title": "checks with regular expressions", "statement": "contains_re, startswith_re and endswith_re hold iff the expression matches somewhere, at the beginning, up to the end; the three negated checks are their negations", "quantifier": "all expressions, all texts", "why_tests_cant": "expressions and texts are unbounded", "anchors": ["ttp/match/re_.py:startswith_re", "ttp/match/re_.py:endswith_re", "ttp/match/re_.py:contains_re"]}
{"id": "C106", "title": "resub and resuball", "statement": "resub replaces the leftmost matches, as many as count says; the name of a template variable stands for its text, literally, in resub and resuball; resuball replaces all matches of all its expressions, one after the other, also those in list and dictionary variables", "quantifier": "all texts, all expressions, also with empty matches, all counts", "why_tests_cant": "texts, expressions and counts are unbounded", "anchors": ["ttp/match/re_.py:resub", "ttp/match/re_.py:resuball"]}
{"id": "C107", "title": "durations in words", "statement": "uptimeparse turns a duration written in words into its number of seconds, or into a dictionary of the numbers", "quantifier": "all durations: any subset of the seven units, any numbers, singular or plural", "why_tests_cant": "durations are unbounded, and the expression is full of optional parts", "anchors": ["ttp/match/uptimeparse.py:uptimeparse"]}
{"id": "C108", "title": "Data given as a path stand for the texts of the files", "statement": "add_input(path) followed by parse shows the same results as adding the texts of the files the path names, one after the other: the file itself, a file of the directory of templates, or all regular files of a directory in listing order. A file that has vanished when it is parsed is parsed as if its path were the text; a file that is not UTF-8 raises TypeError.", "quantifier": "all templates, objects, file systems, paths, directories and texts", "why_tests_cant": "directories and file systems are unbounded and change between calls", "anchors": ["ttp/utils/loaders.py:load_files", "ttp/utils/loaders.py:_load_template_file", "ttp/ttp.py:ttp.add_input", "ttp/ttp.py:_parser_class.set_data"]}
{"id": "C109", "title": "Input tags with urls read exactly the files that pass", "statement": "The data of an input tag are those of its urls in order: a file whatever its name, of a directory exactly the files that have one of the extensions (if given) and match every filter; a url that names nothing is data itself; repeated urls repeat their data.", "quantifier": "all templates with url input tags of different names, file systems, extensions, filters", "why_tests_cant": "any directory content, extension and filter lists", "anchors": ["ttp/ttp.py:_input_class.load_data", "ttp/ttp.py:_input_class.get_attributes", "ttp/utils/loaders.py:load_files"]}
{"id": "C110", "title": "The hostname of a text is that of its first prompt", "statement": "A variable with gethostname becomes the name in the first prompt of the first kind of prompts (SR OS, IOS-XR, privileged IOS, Juniper, Huawei, IOS, Fortigate, in this order) that occurs in the text, with leading byte order marks removed; without a prompt the function answers False. Witnesses: a comment line beginning with ## in the output of a Juniper device is taken for a prompt; letters of a name are removed as byte order marks.", "quantifier": "all texts", "why_tests_cant": "prompts are searched by seven backtracking expressions over unbounded texts", "anchors": ["ttp/variable/gethostname.py:gethostname", "ttp/ttp.py:_parser_class.run_var_functions"]}
{"id": "C111", "title": "Variables with functions", "statement": "Parsing a data item with variables that have functions is parsing it with plain variables whose values are the results of the functions for the text and name of the item before the input functions, when the function does not fail and gives a non-empty value; otherwise, and for all other variables, the values are unchanged; getfilename gives the name of the item.", "quantifier": "all templates, engines, items and variables", "why_tests_cant": "any functions, texts, failures", "anchors": ["ttp/ttp.py:_parser_class.run_var_functions", "ttp/ttp.py:_parser_class.set_data", "ttp/variable/getfilename.py:getfilename"]}
{"id": "C112", "title": "Input functions form a pipeline", "statement": "An item is parsed as if the data that come out of the functions of its input had been given: functions run in order on each other's data, the first that answers False is the last one and its data are kept; an error ends the parsing. An input macro that answers True, False or None keeps the data, any other answer replaces them, an unknown macro does nothing.", "quantifier": "all inputs, functions, data", "why_tests_cant": "lists of functions of any length with any answers", "anchors": ["ttp/ttp.py:_parser_class.set_data", "ttp/input/macro.py:macro"]}
{"id": "C113", "title": "extract_commands keeps exactly the outputs of the commands", "statement": "With a hostname and commands of plain text the data become, for each command in the order of the arguments, the first prompt with this command and the output up to the next prompt or the end, each between newlines; if none is found or there is no prompt the data are unchanged. Witness: the hostname is not escaped, a name with a dot ends the output at another name.", "quantifier": "all texts, hostnames, command lists", "why_tests_cant": "outputs and sessions of any length", "anchors": ["ttp/input/commands.py:extract_commands", "ttp/variable/gethostname.py:gethostname"]}
{"id": "C114", "title": "equal means Python equality", "statement": "The checks equal and notequal of a match variable, equal and exclude_val of a group and the output function is_equal compare values as Python does: True equals 1 and False equals 0, lists are equal item by item and only at the same length, dictionaries are equal when they have the same keys with equal values whatever the order, and values of other different kinds are never equal. The comparison is symmetric and every value equals itself.", "quantifier": "all values, nested to any depth, and all arguments", "why_tests_cant": "tests compare a few strings; the rule must hold for arbitrary nested values", "anchors": ["ttp/match/string.py equal notequal", "ttp/group/equal.py", "ttp/group/exclude_val.py", "ttp/output/is_equal.py"]}
{"id": "C115", "title": "outputs run one after the other", "statement": "After parsing, the results of each template go through the outputs of the template in order: each output gets what the one before handed on; an output whose condition does not hold hands on what it was given; what the last one hands on is the result of the template, and outputs of one template do not touch another.", "quantifier": "all templates, output lists, conditions, functions, formatters and returners", "why_tests_cant": "tests use one or two outputs", "anchors": ["ttp/ttp.py run_outputs", "ttp/ttp.py _outputter_class.run"]}
{"id": "C116", "title": "Templates, lookup tables and input parameters are kept per template in order", "statement": "add_template appends the new templates after those already loaded, in the results too; add_lookup puts the table under its name into every template loaded so far and changes nothing else; get_input_load tells for every template and input the parameters of that input. (A template added after add_lookup does not get the table.)", "quantifier": "all parser objects, templates, tables and inputs", "why_tests_cant": "tests look at one template", "anchors": ["ttp/ttp.py add_template", "ttp/ttp.py add_lookup", "ttp/ttp.py get_input_load"]}
{"id": "C117", "title": "sformat fills in names and values", "statement": "The group function sformat stores the string with every name in braces replaced by the variable of the record, else the template variable, else the global variable; if a name is none of these the record stays as it is. The match function sformat puts the matched value where the string says {0} or {}. Doubled braces stand for braces.", "quantifier": "all records, variables, format strings of texts and names", "why_tests_cant": "tests use one or two strings; the rule ranges over all format strings and all combinations of sources", "anchors": ["ttp/group/sformat.py", "ttp/match/string.py sformat"]}
{"id": "C118", "title": "Output tags", "statement": "An output tag stands for one output: a value in a dictionary written in the tag comes before the attribute of the same name, which comes before the default (returner self, format raw, loader python; text loader for Jinja2); name, returners and condition are those written, functions run in the order of the attributes (a pipe in 'functions' at its place, unknown names left out), and formatters and returners get path and headers as lists, the file name with the time filled in and every other attribute as written.", "quantifier": "all output tags whose option names are in lower case, all texts, loaders and sets of output functions", "why_tests_cant": "any combination of attributes, order of attributes and dictionaries in the text", "anchors": ["ttp/ttp.py:_outputter_class.__init__", "ttp/ttp.py:_outputter_class.extract_load", "ttp/ttp.py:_outputter_class.get_attributes"]}
{"id": "C119", "title": "File returner", "statement": "The file returner writes the text of the data to exactly one file below the url, after making the directory if it is missing; the name is the given one with the variables filled in (template variables before global ones), the given one unchanged if a name is unknown, and the name of the output with the time if none is given.", "quantifier": "all outputs, data, variables and file names made of texts and plain names", "why_tests_cant": "any file name, any variables", "anchors": ["ttp/returners/file_returner.py:file_returner"]}
{"id": "C120", "title": "Terminal returner", "statement": "The terminal returner prints once: a text as it is, other data as Python writes them with line feeds; with colours each listed word gets the code of its colour and the end code, red before green before yellow, and if no word has a character of a code the printed text is the text with codes put in between.", "quantifier": "all texts, data and lists of words", "why_tests_cant": "any text and words; overlapping words", "anchors": ["ttp/returners/terminal_returner.py:terminal_returner"]}
{"id": "C121", "title": "Syslog returner", "statement": "Every server gets one message for each item of what the path leads to (or one for the whole, without iteration), for all data in order, on the given port; empty data, data the path does not lead through and data without JSON text give no message and stop nothing.", "quantifier": "all data, paths, servers, ports", "why_tests_cant": "any nesting of data", "anchors": ["ttp/returners/syslog_returner.py:syslog", "ttp/output/transform.py:traverse"]}
{"id": "C122", "title": "Outputs and what they do outside", "statement": "Running the outputs of a template does outside exactly what their returners do with the formatted data, in the order of outputs and of the returners of each; an output whose condition does not hold does nothing, each output works on what the one before handed on, and data handed on are those of C62 and C115.", "quantifier": "all lists of outputs, data and variables", "why_tests_cant": "any number of outputs and returners", "anchors": ["ttp/ttp.py:_outputter_class.run", "ttp/ttp.py:_template_class.run_outputs"]}
{"id": "C123", "title": "is_ip accepts exactly the address texts", "statement": "A match variable with is_ip is kept iff its text is an address: with \"ipv4\" four decimal numbers up to 255 without leading zeros, optionally followed by a slash or space and a mask (prefix length, netmask or host mask); with \"ipv6\" an address of version 6 optionally with a prefix length; without arguments either. A value that is no text is rejected without an error. The value is not changed.", "quantifier": "every text, every list of arguments, every state of the variables", "why_tests_cant": "address syntax has unboundedly many near misses; tests check a handful", "anchors": ["ttp/match/ip.py:is_ip", "ttp/match/ip.py:to_ip"]}
{"id": "C124", "title": "cidr_match on texts", "statement": "A text that stands for addresses is accepted iff one of them belongs to the prefix; the prefix is the value of the variable of that name or the text itself. A text that is no address is kept; a prefix that is no network or has host bits is a ValueError that ends parsing.", "quantifier": "every value text, prefix text, variables", "why_tests_cant": "overlap of networks must hold for all pairs of addresses and masks", "anchors": ["ttp/match/ip.py:cidr_match", "ttp/match/ip.py:to_net"]}
{"id": "C125", "title": "ip_info tells the facts of an address", "statement": "A version 4 address text becomes the dictionary of its facts: texts of address, netmask, hostmask, network and broadcast address, flags, number of addresses, hosts = number of addresses minus two; any other text is kept.", "quantifier": "every address, every mask in each of its three forms, every text", "why_tests_cant": "2^32 addresses times 33 masks", "anchors": ["ttp/match/ip.py:ip_info"]}
{"id": "C126", "title": "to_float and print", "statement": "to_float turns the text of a number into the number and keeps values it cannot convert, as to_int does; print keeps the value.", "quantifier": "every value", "why_tests_cant": "conversion errors show only on inputs that tests do not have", "anchors": ["ttp/match/to.py:to_float", "ttp/match/string.py:print_"]}
{"id": "C127", "title": "Results of macros of match variables", "statement": "True keeps the match, False discards it, None changes nothing, a pair (value, dictionary) replaces the value and adds the entries, another value replaces the value; a macro name that is not defined keeps the match.", "quantifier": "every macro function, value and state", "why_tests_cant": "macros are arbitrary user functions", "anchors": ["ttp/match/macro.py:macro"]}
{"id": "C128", "title": "lookup in results of templates and groups", "statement": "lookup(template=\"name.a.b\") looks the match up in the table a.b of the results of the first template of that name, lookup(group=\"name.a.b\") in the results of the first input that has that group; a key, table, template or group that does not exist leaves the match as it is.", "quantifier": "every list of templates, results, path, text, with and without add_field", "why_tests_cant": "the outcome depends on the results of everything parsed before", "anchors": ["ttp/match/lookup.py:lookup"]}
{"id": "C129", "title": "record saves a match as variable", "statement": "record(\"name\") keeps the match and saves its value under the name among the variables of the template and the global ones, leaving all other variables.", "quantifier": "every value, name and state of the variables", "why_tests_cant": "the states of the variables are unbounded", "anchors": ["ttp/match/record.py:record"]}
{"id": "C130", "title": "The text of the regular expression of a line", "statement": "The text that TTP puts together for a template line - escaped literal text, runs of blanks and digits replaced, every variable replaced by its group - is a valid regular expression, and it finds in every text exactly the matches of the line: the literal text, the blanks, and every variable with one of its patterns. It compiles just if no two captured variables of the line have the same group name. Patterns given by the user are pasted in as they are, so that one that is no expression on its own can still make up a valid one; `ignore` with two arguments is not replaced at all and becomes part of the expression.", "quantifier": "all template lines with usual variables (no doubled braces in patterns, at most one argument of ignore), all patterns, all texts", "why_tests_cant": "the expression is built by successive textual replacement and then parsed again; that quoting, grouping and replacement never interfere is a statement about all literals and patterns", "anchors": ["ttp/ttp.py:_variable_class.form_regex", "ttp/ttp.py:_group_class.get_regexes", "ttp/patterns/get_pattern.py"]}
{"id": "C131", "title": "The text of a line of headings", "statement": "The text that TTP puts together for a line of headings is a valid regular expression for headings that are different identifiers, and it finds exactly the rows that the description of tables (C99) gives: groups of exact width for the mandatory columns but the last, at most the width for the others, the last one up to the end of the line.", "quantifier": "all lines of headings, all numbers of mandatory columns, all texts", "why_tests_cant": "widths come from the positions of the headings and become quantifiers in a text; for every number of columns and every width this must be read back as the same numbers", "anchors": ["ttp/ttp.py:_variable_class.form_regex"]}
{"id": "C132", "title": "What the named patterns match", "statement": "For each of the patterns WORD, DIGIT, PHRASE, ROW, ORPHRASE, IP, PREFIX, IPV6, PREFIXV6, MAC and _line_ the texts it matches as a whole are exactly: words without white space; digits; two or more words with one blank between; two or more words with blanks between; a word or a phrase; four numbers of one to three digits; the same with a slash and up to two digits; up to seven pieces of up to four hexadecimal digits with colons; six pairs or three fours of hexadecimal digits; anything on one line. All IPv4 addresses are matched by IP, but 999.999.999.999 too; separators in MAC can be mixed; IPv6 addresses with an embedded IPv4 address are not matched. No named pattern matches over the end of a line. Escaped text matches itself only.", "quantifier": "all texts", "why_tests_cant": "unit tests try a few texts for each pattern; what is matched and what is not is a statement about all texts", "anchors": ["ttp/patterns/get_pattern.py"]}
{"id": "C133", "title": "The JSON formatter writes the results faithfully", "statement": "For all results, `format=\"json\"` gives a text exactly if no dictionary mixes texts and numbers as keys (else TypeError); the text is a JSON document of ASCII characters only, any reader of JSON gets the results back from it (keys as texts, in ascending order), equal to the results when all keys are texts; what the syslog returner sends for an item is a document of exactly this item.", "quantifier": "all results (values of any depth), all strings with any characters", "why_tests_cant": "The space of nested results and of characters to escape (control characters, surrogate pairs) is unbounded.", "anchors": ["ttp/formatters/json_formatter.py:json", "ttp/returners/syslog_returner.py:syslog"]}
{"id": "C134", "title": "The JSON loader reads exactly JSON documents", "statement": "For every text, `load=\"json\"` gives the value of the JSON document it is, None if it is none; no text is a document of two values; of a name that occurs twice in an object the last value counts.", "quantifier": "all texts", "why_tests_cant": "All strings, any nesting, escapes, numbers.", "anchors": ["ttp/utils/loaders.py:load_json"]}
{"id": "C135", "title": "Data in tags: loaders and included files", "statement": "What a tag contains: its text followed by the texts of all files that `include` names, read as CSV, JSON, INI, Python or YAML; the text itself for `load=\"text\"`; nothing without text and include; KeyError for an unknown loader; texts written by the JSON formatter are read back to equal data from a tag or file.", "quantifier": "all texts, attributes, file systems, included files and directories", "why_tests_cant": "Every combination of text, loader, file system and directory content.", "anchors": ["ttp/utils/loaders.py:load_struct", "ttp/utils/loaders.py:_get_include_data", "ttp/utils/loaders.py:load_csv", "ttp/utils/loaders.py:load_json", "ttp/utils/loaders.py:load_ini"]}
{"id": "C136", "title": "Output functions of a tag", "statement": "An output macro replaces the results by what it returns, None keeps them, a missing macro keeps them; is_equal reports name, description and whether the results equal the content of the tag; traverse and dict_to_list work at paths given as text with dots or as list.", "quantifier": "all results, macros, tags and paths", "why_tests_cant": "Macros are arbitrary functions, results arbitrary values.", "anchors": ["ttp/output/macro.py:macro", "ttp/output/is_equal.py:is_equal", "ttp/output/transform.py:traverse", "ttp/output/transform.py:dict_to_list"]}
{"id": "C137", "title": "Template texts are read by the grammar of XML", "statement": "A text is read as an element with attributes, texts and elements exactly if it is an XML document (of names in ASCII, without name spaces, declaration and document type) and as the element that the grammar gives; every other text is a ParseError.", "quantifier": "all texts of any length and nesting", "why_tests_cant": "Infinitely many texts and nestings.", "anchors": ["ttp/ttp.py:_template_class.construct_etree"]}
{"id": "C138", "title": "Writing and reading a template changes nothing", "statement": "When a template is loaded it is written as text and read again; this gives the template as it was, with all names, attributes, texts and elements, if no text has a carriage return.", "quantifier": "all elements, templates, files and extend tags", "why_tests_cant": "Every element and every character.", "anchors": ["ttp/ttp.py:_template_class.handle_extend", "ttp/ttp.py:_template_class.construct_etree"]}
{"id": "C139", "title": "Template text needs escapes for three characters only", "statement": "A template of text lines without the characters < and & and without ]]> is read as these lines; any text can be written with &, < and > by their names; with such a template ttp(data, template) and parse give the records of the lines.", "quantifier": "all texts, all sets of template lines, all data", "why_tests_cant": "All texts.", "anchors": ["ttp/ttp.py:_template_class.construct_etree", "ttp/ttp.py:ttp.__init__"]}
{"id": "C140", "title": "Which template texts fail to load", "statement": "A template without < and carriage returns loads exactly if it is content of an element: every & begins a reference and ]]> does not occur; it then is one group with the denoted text; otherwise ParseError.", "quantifier": "all texts", "why_tests_cant": "All texts.", "anchors": ["ttp/ttp.py:_template_class.construct_etree"]}
{"id": "C141", "title": "A template with templates inside loads the templates as written", "statement": "add_template writes every template inside as bytes and makes a new object of them, which reads them, replaces extend tags, writes and reads again. Still, a template whose inner templates are followed by white space only and have no carriage returns in their texts is added as its tree, with the extend tags of the template and of each inner template replaced by what they stand for, at every depth. An inner template of lines without tags is not: it becomes a group with the text b' and all its lines in one line of another element.", "quantifier": "all template texts (or paths), trees, files, macro functions, filters and depths of templates inside of templates", "why_tests_cant": "the text of each level is produced by the code from the level above; a test can only try some texts and depths", "anchors": ["ttp/ttp.py:_template_class.parse_template", "ttp/ttp.py:_template_class.construct_etree", "ttp/ttp.py:_template_class.handle_extend"]}
{"id": "C142", "title": "Text after a template inside of a template makes it unloadable", "statement": "If anything but white space stands between the end tag of an inner template and the next tag, add_template fails whatever the bound of recursion: the bytes of the element with the text after it are not a document, so they are put into a new template, in which the element is again followed by text.", "quantifier": "all template texts with such an inner template, all filters-free calls, bounds of recursion and depths", "why_tests_cant": "that no depth is enough cannot be seen from finitely many runs", "anchors": ["ttp/ttp.py:_template_class.parse_template", "ttp/ttp.py:_template_class.construct_etree"]}
{"id": "C143", "title": "Arguments of functions mean what they say", "statement": "The text in the brackets of a function (and the value of a function attribute of a group) that is a list of quoted texts, integers, names, lists of them and name=value pairs is read as exactly these values: quotes are optional around a word that is neither taken nor true/false/none, adjacent quoted texts are joined, Python's escapes apply and an unknown escape keeps its back slash; a positional value after a named one or a repeated name makes loading exit. Each text has one meaning.", "quantifier": "every text, any number of arguments, any nesting of lists, any white space, whatever Python does with texts outside of this language", "why_tests_cant": "The claim is about every text of an argument language (quoting, escaping, nesting, commas, white space); tests show some texts", "anchors": ["ttp/utils/get_attributes.py:get_attributes", "ttp/utils/get_attributes.py:_UndefSubst", "ttp/utils/get_attributes.py:_get_args_kwargs"]}
{"id": "C144", "title": "Lookup tables of a template", "statement": "Each lookup tag with a name gives the table that its loader makes of its text (or of the included file). Under each name there is the table of the last tag of the name that holds anything; a tag that holds nothing does not replace an earlier table, and a tag without a name is not even read.", "quantifier": "all templates without inner templates, all sets of lookup tags, texts and loaders", "why_tests_cant": "tests use one or two tags; that the last non-empty tag of each name wins must hold for every list of tags", "anchors": ["ttp/ttp.py: parse_lookup", "ttp/utils/loaders.py: load_struct"]}
{"id": "C145", "title": "Input tags with attributes, urls, functions and a dictionary in the text", "statement": "What an input tag says is given by its attributes and by the dictionary in its text, which counts from the place of the load attribute on; of several attributes of a name the last one counts; functions come in the order of the attributes. Tags of the same name become one input: functions and parameters of the first tag, groups of all tags, and the data of all tags, each once.", "quantifier": "all templates, all lists of input tags of any kind, all loaders, all files", "why_tests_cant": "order of attributes, loaders and several tags of a name combine without bound", "anchors": ["ttp/ttp.py: _input_class", "ttp/ttp.py: update_input", "ttp/utils/loaders.py: load_files"]}
{"id": "C146", "title": "Record lookups in results of templates and groups", "statement": "The group function lookup with template= or group= looks the variable of a record up in a table of the results of the first template of that name (its first input), or of the group: results of the input that is being parsed first, else of the first earlier input that has the group. The value found replaces that of the variable, becomes a new field, or is joined to the record; without table or value the record stays as it is, and no record is dropped.", "quantifier": "all records, all tables, all lists of templates and of earlier results, all paths", "why_tests_cant": "which results are searched, in which order and how deep is unbounded; tests use one template and one input", "anchors": ["ttp/group/lookup.py: lookup"]}
{"id": "C147", "title": "Addresses with masks in records", "statement": "The group function to_ip(ip_key, mask_key) replaces the address of a record by the object of the address with this mask (prefix length, netmask, host mask; text or number; version 4 or 6) and leaves all else; a record without one of them, or with texts that are no address, stays as it is, and no record is dropped.", "quantifier": "all records, all texts and numbers", "why_tests_cant": "the texts are unbounded", "anchors": ["ttp/group/to_ip.py: to_ip", "ttp/match/ip.py: to_ip"]}
{"id": "C148", "title": "Validation of records", "statement": "cerberus keeps a valid record as it is, drops one that is not, or keeps it with the errors if these are asked for; validate keeps every record and stores verdict, information text with the values filled in, and errors in the named fields; without schema nothing happens.", "quantifier": "all records, schemas, validators, information texts", "why_tests_cant": "the validator and the records are arbitrary", "anchors": ["ttp/group/validate_cerberus.py: cerberus_validate", "ttp/group/validate_cerberus.py: validate"]}
{"id": "C149", "title": "Reports of the validation of results", "statement": "The output function validate gives one report for results that are a dictionary, and one for each dictionary of results that are a list, in order: verdict, information with values filled in (as written if a name is not known), errors. Without schema the results stay.", "quantifier": "all results, schemas, validators, information texts", "why_tests_cant": "lists of results of any length with arbitrary items", "anchors": ["ttp/output/validate_cerberus.py: validate", "ttp/output/validate_cerberus.py: _run_validation"]}
{"id": "C150", "title": "Comparison of results of two inputs", "statement": "deepdiff(before, after) compares exactly the results of the one input with those of the other, wherever these inputs are and however many data items each input has, as lists or item by item; the outcome replaces the results or is added under a name. Other sources are the first template of a name and a template variable.", "quantifier": "all lists of inputs with any number of data items, all results, all comparison functions and options", "why_tests_cant": "the index arithmetic over inputs must hold for every number of data items in every input", "anchors": ["ttp/output/deepdiffer.py: deepdiff_func"]}
{"id": "C151", "title": "What a flat group means, with patterns, functions, defaults and marks", "statement": "A template with one group `name*` whose lines have texts, variables and `ignore`, with named patterns, expressions `re(...)`, match functions, `default(value)`, `_start_`, `_end_` and `chain(...)`, template variables put in for arguments, expressions and chains that name them, is loaded, and parsing any text whose lines each fit at most one template line in one way gives: a record for every accepted start line, holding the values of the start line, then of the lines up to the next start or end line, then the defaults; functions are applied in order and a rejected ordinary line is left out; lines after a rejected start line or an end line are ignored; a text without start line gives the defaults alone if a start line variable has one. The meaning is unique up to the order of keys, and the parser object returns the meanings of all texts of all inputs in order.", "quantifier": "all templates of that form, all match functions, all texts whose lines are read in one way, all inputs, any variables", "why_tests_cant": "the claim composes loader, line compiler, regular expressions, search, match functions and results for every template and every text", "anchors": ["ttp/ttp.py:_group_class", "ttp/ttp.py:_variable_class", "ttp/ttp.py:_parser_class", "ttp/ttp.py:_results_class"]}
{"id": "C152", "title": "Workbooks of the excel formatter", "statement": "An output with format `excel` and returner `file` writes one workbook, at the file name with `.xlsx` in the directory, and no other file: every description of a tab gives a sheet with its title (or `Sheet` and its number) whose first row has the headers and whose other rows are the table of the results at its path; with `update` the sheets that were there are kept, rows of tabs with their titles go below, other tabs come after them.", "quantifier": "all outputs, descriptions of tabs, results and workbooks that exist; titles of tabs differ", "why_tests_cant": "depends on the files that exist and on earlier runs; a few examples cannot show that no sheet or row is lost", "anchors": ["ttp/formatters/excel_formatter.py:excel_formatter", "ttp/returners/file_returner.py:file_returner"]}
{"id": "C153", "title": "A function name stands for the function added last under it, otherwise for the function of TTP", "statement": "When a template uses a function name, the function that runs is the one the user added last under this name with add_function to this ttp object; if none was added, the function of TTP that goes by this name; if there is none either, it is an error. This does not depend on which functions were used before, in this object or in others.", "quantifier": "every sequence of add_function calls and uses of functions in any number of ttp objects of a process, every scope and name, every set of function files without clashes (that of this installation included)", "why_tests_cant": "the functions are imported lazily, at the first use of any function of a file, so that which function a name stands for could depend on every earlier use; a test fixes one order", "anchors": ["ttp/ttp.py: CachedModule", "ttp/ttp.py: lazy_import_functions", "ttp/ttp.py: ttp.add_function"]}
{"id": "C154", "title": "Objects of one process do not see each other's data", "statement": "A function of TTP that runs while a ttp object parses reads and writes the variables, lookup tables, results and functions of this object, also if other ttp objects of the same process parse before, in between or at the same time.", "quantifier": "every sequence (every interleaving) of uses of functions in any number of ttp objects of a process", "why_tests_cant": "the modules of the functions are shared by all objects, so the answer depends on the interleaving of the first uses", "anchors": ["ttp/ttp.py: CachedModule.load", "ttp/match/lookup.py", "ttp/group/set_.py"]}
{"id": "C155", "title": "`result` with keyword arguments is an output of its own", "statement": "`result(templates, structure, **kwargs)` makes an output with these attributes (defaults as for an output tag) and runs it on the stored results of each template asked for, in loading order, with the macros of that template; structure `list` gives what the output makes of each, `flat_list` the same with lists unpacked, `dictionary` only the templates with a name, the last of a name winning although the output ran for all; without `self` among the returners the stored results are given; without keyword arguments nothing happens outside and the answer is made of the stored results; another structure gives `None`; a `condition` cannot be used there, it raises.", "quantifier": "every object, list of names, structure and keyword arguments", "why_tests_cant": "the answer depends on the attributes, the results of all templates and the state the output keeps between them", "anchors": ["ttp/ttp.py:ttp.result", "ttp/ttp.py:_outputter_class"]}
{"id": "C156", "title": "`quick_parse` on a template of plain lines", "statement": "`quick_parse(data, template)` with a template that is only lines of text returns one result with the record of the data, the list of their records, or an empty dictionary; with `result_kwargs` it returns what the output made of these makes of that result; data that are empty or `None` are not given to the parser, which then has the inputs of the template only.", "quantifier": "every such template, data, variables, and keyword arguments of the result", "why_tests_cant": "the text of the template and the data are arbitrary", "anchors": ["ttp/utils/quick_parse.py:quick_parse", "ttp/ttp.py:ttp"]}
{"id": "C157", "title": "What nested groups mean, with patterns, functions, defaults and `_start_`", "statement": "A template with nested groups of any depth and number, each `name*`, whose lines have texts, `ignore` and variables with named patterns, expressions, match functions, `default(value)`, `_start_` and chains, template variables put in, is loaded, and parsing any text whose lines each fit at most one line of a top group and the groups inside, in one way, gives the tree of records: a start line of a child group counts only after its parent was found in the text, an ordinary line only after its group was found; a rejected start line switches its group off until the next accepted one, everything of its child groups included; a rejected ordinary line is left out; lines of an outer group after an inner one go into the record of the outer group; records get the defaults of their own group. The meaning is unique, variables are left alone, and the parser object returns the meanings of all texts of all inputs in order.", "quantifier": "all trees of groups of that form, all match functions, all texts whose lines are read in one way, all inputs, any variables", "why_tests_cant": "the claim composes loader, line compiler, regular expressions, search, match functions and results for every tree of groups and every text", "anchors": ["ttp/ttp.py:_group_class", "ttp/ttp.py:_variable_class", "ttp/ttp.py:_parser_class.parse", "ttp/ttp.py:_results_class"]}
{"id": "C158", "title": "A name lookup asks the servers it names, otherwise those of the system", "statement": "A variable with `dns` or `rdns` sends its inquiry to the name servers in its own arguments (sorted for `dns`), with its own timeout; if it names none, to the name servers of the system.", "quantifier": "all histories of lookups in all templates and objects of a process, all arguments, all answers of the network", "why_tests_cant": "the resolver is one object of the process, so what a lookup asks depends on the whole history of calls and on which of them timed out", "anchors": ["ttp/match/dns_lookups.py:dns_forward", "ttp/match/dns_lookups.py:dns_reverse"]}
{"id": "C159", "title": "What a name lookup gives", "statement": "A lookup gives the records that the network answered to its inquiry (`dns` all, `rdns` the first without final dots), in place of the value or in a field of its own; if the name or record does not exist or no answer comes in time the value stays as it is; it raises exactly if `rdns` gets no address or the network fails in another way.", "quantifier": "all histories of lookups, all arguments, all answers", "why_tests_cant": "answers of a network cannot be enumerated", "anchors": ["ttp/match/dns_lookups.py:dns_forward", "ttp/match/dns_lookups.py:dns_reverse"]}
{"id": "C160", "title": "Records of geoip2 databases", "statement": "`geoip_lookup(\"tag.name\")` adds the record of the address as a new field exactly if the lookup tag names that database, its file can be opened and the database knows the address; otherwise the value stays as it is; it never raises.", "quantifier": "all lookup tags that name no kind twice, all files, databases, addresses", "why_tests_cant": "databases and tags are arbitrary", "anchors": ["ttp/lookup/geoip2.py:geoip2_db_loader", "ttp/match/geoip_lookup.py:geoip_lookup", "ttp/ttp.py:parse_lookup"]}
{"id": "C161", "title": "The text of `get_template` stands for the same template", "statement": "For a parser with one template without templates inside, `get_template()` returns an XML document without `extend` tags to handle, the template in which every tag is replaced by what it stands for; to add this text is to add the same template. With several templates the text is that of each, in order, with a line break in between; for a template with templates inside it is that of the templates inside, in which `extend` tags are replaced.", "quantifier": "all templates, files, `extend` tags nested to any depth", "why_tests_cant": "templates and files are arbitrary; the text is written and read again", "anchors": ["ttp/ttp.py:get_template", "ttp/ttp.py:handle_extend"]}
{"id": "C162", "title": "The command line prints a JSON document of the results", "statement": "For `ttp -t FILE -d PATH -o json` with a template of text lines (a file or the text itself), data that are a file, a directory or a text, and variables in JSON, the tool prints a JSON document which every reader reads as the results of the texts in their order, in the structure asked with -s (list, dictionary, flat_list); an unknown format is replaced by JSON. Variables that are not JSON raise ValueError, other JSON ends the tool; --one with --multi ends the tool.", "quantifier": "all templates of text lines, texts, file systems, variables, names of formats and templates to print", "why_tests_cant": "The options combine with every template, every file system and every text; what is printed passes through the parser, the selection of templates, the shape of results and the JSON writer.", "anchors": ["ttp/ttp.py:cli_tool", "ttp/ttp.py:ttp.set_input", "ttp/ttp.py:ttp.result", "ttp/formatters/json_formatter.py:json_formatter", "ttp/utils/loaders.py:load_files"]}
{"id": "C163", "title": "Arguments of match functions that name template variables", "statement": "For a variable of a template line whose functions are any of contains_re, startswith_re, endswith_re, notstartswith_re, notendswith_re, exclude_re, exclude, contains, equal, notequal, sformat: when the template is loaded, each positional argument whose text is the name of a template variable is replaced by the value of that variable, any other text, number or flag is passed as written, the functions stay in the written order with their named arguments unchanged, and if some argument is a list or a dictionary loading raises TypeError.", "quantifier": "every set of template variables, every variable name and every list of such functions with any arguments, however written", "why_tests_cant": "tests try a few functions with one argument that names a variable; the claim is about every number of arguments and functions and about which arguments are not looked up", "anchors": ["ttp/ttp.py:_variable_class.extract_functions", "ttp/ttp.py:get_arg_from_vars"]}
{"id": "C164", "title": "The expressions of a variable", "statement": "For a variable of a template line with any number of re(text) functions and names of patterns: each asks for its first argument, or without arguments for its own name; that stands for the value of the template variable of that name if this is a text and not empty, otherwise for the pattern of that name that comes with TTP, otherwise for the text itself. The variable gets all these expressions as alternatives in the written order; if one of them is no regular expression, loading the template raises re.error.", "quantifier": "every set of template variables, patterns and compiled expressions, every variable name and every list of such functions, however written", "why_tests_cant": "tests use one or two patterns per variable; the order of the lookup and of the alternatives matters for every combination of names", "anchors": ["ttp/ttp.py:_variable_class.extract_functions", "ttp/ttp.py:extract_re", "ttp/patterns/get_pattern.py:get"]}
{"id": "C165", "title": "chain stands for the functions of a template variable", "statement": "chain(\"name\") of a template variable that is a text of functions with pipes between them, or a list of such texts, does what the same functions do when they are written in its place, whatever functions stand before and after it; chain of a name that is no template variable does nothing; a chain that begins with itself raises RecursionError.", "quantifier": "every template context, variable name, functions before and after, chain text or list of texts without further chains, any defaults and line", "why_tests_cant": "tests compare a few chains; the claim is about every chain at every position among other functions", "anchors": ["ttp/ttp.py:_variable_class.extract_functions", "ttp/ttp.py:extract_chain", "ttp/utils/get_attributes.py:get_attributes"]}
{"id": "C166", "title": "What validate_yangson reports", "statement": "The output function validate_yangson, once it has a data model (made of the text of the output tag, else of the library file that is named, else of the directory of modules): for a list of results with metadata it reports for each number whether that item is read, validates and (with to_xml) converts, the traceback for exactly the others, and as result the results as they are or the XML of the valid ones in order; without metadata it returns False if one item is not valid, otherwise the results; for a dictionary the same for this one instance. With a scope or content kind it does not know, nothing is valid though nothing was checked. Without a data model it returns False, or a report with success False and the results as they are.", "quantifier": "every behaviour of the library yangson, every list or dictionary of results, all options, every content of the directory and of the module level dictionaries", "why_tests_cant": "tests validate a few results with one set of modules; numbering, order and the combination of options must hold for every list", "anchors": ["ttp/output/validate_yangson.py:validate_yangson"]}
{"id": "C167", "title": "The library of YANG modules is that of the directory", "statement": "validate_yangson makes the library of the directory it is given: one entry for each module of the files ending in .yang, in their order, with its first revision, its namespace, its own features and those of its submodules, its submodules, and conformance implement just if the module and all its submodules add nodes; no library if a submodule is missing or has another revision than asked for. The same call again gives the same library.", "quantifier": "every directory (any number of files of any names, modules, submodules, revisions, features), every parser of module texts", "why_tests_cant": "tests use one directory of modules in one process; the claim is about every directory and every sequence of calls", "anchors": ["ttp/output/validate_yangson.py:_make_library", "ttp/output/validate_yangson.py:_module_entry"]}
{"id": "C168", "title": "The diagram formatter hands every result to the diagram", "statement": "The formatter `n2g` makes one diagram of the kind named by `module` (in any letter case; yEd if none is named), created with the given treatment of double nodes and links; it calls the named method, with the given arguments, on what `path` leads to from each result, in order (a dictionary is one result), lays the diagram out if `algo` is given, and returns its text; if one of these steps fails nothing is returned. With another module, or without the library, the results are returned as they are.", "quantifier": "all results, options, diagram libraries", "why_tests_cant": "the library is not installed where tests run and results, paths and options are arbitrary", "anchors": ["ttp/formatters/n2g_formatter.py:n2g", "ttp/output/transform.py:traverse"]}
{"id": "C169", "title": "Where the records of a flat group go", "statement": "For every group name that is a path of names with no, one or two asterisks each, a template with one flat group (patterns, functions, defaults, start and end lines) loads, and for every text the results are exactly this: nothing for no record; otherwise one dictionary inside of the other along the path (a list of one item at an inner item with one asterisk), and at its end the list of all records (one asterisk), the record itself or the list of several records (no asterisk), or one dictionary with the values of all records, the first one that has a key counting (two asterisks).", "quantifier": "All paths of any length, all templates with one flat group, all texts whose lines are read in one way at most, all functions and variables around, all inputs of the parser object", "why_tests_cant": "The place depends on the whole path, the number of records and the options at once; tests cover a few paths with a few records", "anchors": ["ttp/ttp.py:extract_name", "ttp/ttp.py:dict_by_path", "ttp/ttp.py:list_to_dict_fwd", "ttp/ttp.py:value_to_list", "ttp/ttp.py:save_curelements", "ttp/ttp.py:form_path"]}
{"id": "C170", "title": "Group functions of a flat group, from the template to the results", "statement": "A template with one flat group that has functions as attributes of its tag (one by one, or as a pipe in the attribute `functions`, where names that are no group functions are left out) loads, and for every text the results hold, at the place that the path means, exactly the records that every function lets pass, each as the functions leave it, in order; a record that one function turns down is nowhere in the results and has no effect on the others. With `contains` these are the records in which the variable matched, unchanged.", "quantifier": "All paths, all lists of function attributes, all templates with one flat group, all texts whose lines are read in one way at most, all functions that give an answer for the records and leave the parser's state alone, all inputs of the parser object", "why_tests_cant": "Functions see records that come from any text; dropping one record must not touch the next one, which depends on the whole history of the parser", "anchors": ["ttp/ttp.py:processgrp", "ttp/ttp.py:save_curelements", "ttp/ttp.py:get_attributes", "ttp/group/contains.py:contains"]}
{"id": "C171", "title": "Checks of a group, from the template to the results", "statement": "A template with one flat group that has any number of the checks `contains`, `containsall`, `exclude`, `excludeall`, `equal`, `exclude_val` as attributes, in any order, loads, and for every text the results are exactly the records for which every check holds, unchanged and in order, at the place that the path means: `containsall` asks that every variable has a value that is not its default, `contains` asks this of the first listed variable in the record, `exclude` that no listed variable without a default is in the record (`excludeall`: not all of them), `equal` and `exclude_val` compare the value with a template variable or a text.", "quantifier": "All lists of checks, all paths, all templates with one flat group, all texts whose lines are read in one way at most, all variables around, all inputs of the parser object", "why_tests_cant": "Any combination of checks, records and defaults; a dropped record must leave no trace in the ones after it", "anchors": ["ttp/ttp.py:processgrp", "ttp/group/contains.py:contains", "ttp/group/containsall.py:containsall", "ttp/group/exclude.py:exclude", "ttp/group/excludeall.py:excludeall", "ttp/group/equal.py:equal", "ttp/group/exclude_val.py:exclude_val"]}
{"id": "C172", "title": "The default of a group", "statement": "A flat group with the attribute `default=\"x\"` (a text, or the name of a template variable whose value is a text) loads to the same group as the template in which `default(\"x\")` is written at the first place of every variable, before its own functions; so every variable has the last default that is written at it, or `x` if there is none, and the records read from any text, with any group functions, are those of that template (C170), a text without a start line giving the defaults once.", "quantifier": "All texts x, all templates with one flat group, all paths and function attributes, all texts whose lines are read in one way at most, all inputs of the parser object", "why_tests_cant": "A group's default must reach every variable and must not replace a default of a variable, wherever in the template the variable occurs before or again", "anchors": ["ttp/ttp.py:_group_class", "ttp/ttp.py:_variable_class", "ttp/ttp.py:processgrp"]}
