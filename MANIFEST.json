{
 "claims": [
  {
   "property": "C01",
   "status": "proved",
   "theorems": [
    "Casbin.DecisionProps.C01_allow_override"
   ],
   "note": "candidates = all p rules, or with set storage the rule equal to the request; every candidate has the declared length and evaluates"
  },
  {
   "property": "C02",
   "status": "proved",
   "theorems": [
    "Casbin.DecisionProps.C02_deny_override"
   ],
   "note": ""
  },
  {
   "property": "C03",
   "status": "proved",
   "theorems": [
    "Casbin.DecisionProps.C03_allow_and_deny"
   ],
   "note": ""
  },
  {
   "property": "C04",
   "status": "proved",
   "theorems": [
    "Casbin.DecisionProps.C04_priority"
   ],
   "note": ""
  },
  {
   "property": "C05",
   "status": "proved",
   "theorems": [
    "Casbin.DecisionProps.C05_explanation",
    "Casbin.DecisionProps.C05_empty_iff"
   ],
   "note": ""
  },
  {
   "property": "C06",
   "status": "proved",
   "theorems": [
    "Casbin.DecisionProps.C06_order_irrelevant",
    "Casbin.DecisionProps.C06_priority_order"
   ],
   "note": "every candidate rule evaluates; when a rule throws, the order decides whether it is reached"
  },
  {
   "property": "C07",
   "status": "partial",
   "theorems": [
    "Casbin.DecisionProps.C07_allow_override_partial",
    "Casbin.DecisionProps.C07_deny",
    "Casbin.DecisionProps.C07_addPolicy_partial",
    "Casbin.DecisionProps.C07_allow_override_fails"
   ],
   "note": "allow-override fails on the empty policy (request with empty values is granted, then denied after adding a rule)"
  },
  {
   "property": "C08",
   "status": "partial",
   "theorems": [
    "Casbin.DecisionProps.C08_disabled_partial",
    "Casbin.DecisionProps.C08_enableEnforce_partial",
    "Casbin.DecisionProps.C08_fails",
    "Casbin.DecisionProps.C08_exact",
    "Casbin.DecisionProps.C08_map",
    "Casbin.DecisionProps.C08_history"
   ],
   "note": "A disabled enforcer still denies a request with the wrong number of values (C08_fails); C08_exact: it grants exactly the requests with the right number. C08_map: maps whose names are names of the matcher language. C08_history: after any editing calls."
  },
  {
   "property": "C09",
   "status": "proved",
   "theorems": [
    "Casbin.DecisionProps.C09_wrong_arity"
   ],
   "note": ""
  },
  {
   "property": "C10",
   "status": "proved",
   "theorems": [
    "Casbin.DecisionProps.C10_malformed",
    "Casbin.DecisionProps.C10_throws"
   ],
   "note": ""
  },
  {
   "property": "C100",
   "status": "partial",
   "theorems": [
    "Casbin.MatcherProps.C100_literal_partial",
    "Casbin.MatcherProps.C100_fails"
   ],
   "note": "Violated for texts containing && or ||. Proved for printable ASCII without them."
  },
  {
   "property": "C101",
   "status": "partial",
   "theorems": [
    "Casbin.MatcherProps.C101_refused_partial",
    "Casbin.MatcherProps.C101_closed",
    "Casbin.MatcherProps.C101_grammar_partial",
    "Casbin.MatcherProps.C101_ends",
    "Casbin.MatcherProps.C101_fails"
   ],
   "note": "Violated: with a forgotten && only the last condition counts. Proved for every text inside the modelled part of exprtk: what is accepted is a sequence of expressions; a text whose parentheses or quotation marks do not pair up, or that begins or ends with an operator or a comma, is refused."
  },
  {
   "property": "C102",
   "status": "proved",
   "theorems": [
    "Casbin.MatcherProps.C102_condition"
   ],
   "note": "For a Faithful library."
  },
  {
   "property": "C103",
   "status": "proved",
   "theorems": [
    "Casbin.MatcherProps.C103_answer",
    "Casbin.TextProps.C103_any_length"
   ],
   "note": "For a Faithful library; when no rule is looked at, the condition is asked of empty fields (C07). C103_any_length: rules of any length, read in order."
  },
  {
   "property": "C104",
   "status": "partial",
   "theorems": [
    "Casbin.MatcherProps.C104_root_partial",
    "Casbin.MatcherProps.C104_history_partial",
    "Casbin.MatcherProps.C104_fails",
    "Casbin.TextProps.C104_any_length"
   ],
   "note": "Violated by the request of empty strings on an empty policy. Requests with a NUL character are left out for set storage. C104_any_length: rules of any length, read in order. Histories may contain loads, saves, rebuilt links and settings."
  },
  {
   "property": "C105",
   "status": "partial",
   "theorems": [
    "Casbin.MatcherProps.C105_examples_partial",
    "Casbin.MatcherProps.C105_fails"
   ],
   "note": "Violated by the models with in, globMatch and keyMatchCustom. Proved: all the others are written conditions, to which C102 applies."
  },
  {
   "property": "C106",
   "status": "proved",
   "theorems": [
    "Casbin.MatcherProps.C106_negation"
   ],
   "note": "For conditions of fewer than 10000 words."
  },
  {
   "property": "C107",
   "status": "partial",
   "theorems": [
    "Casbin.ModelProps.C107_effects_partial",
    "Casbin.ModelProps.C107_history_partial",
    "Casbin.ModelProps.C107_fails",
    "Casbin.TextProps.C107_any_length",
    "Casbin.TextProps.C107_any_history"
   ],
   "note": "Violated on an empty policy: a request of empty strings is granted. C107_any_length and C107_any_history: rules of any length, read in order. Histories may contain loads, saves, rebuilt links and settings."
  },
  {
   "property": "C108",
   "status": "partial",
   "theorems": [
    "Casbin.ModelProps.C108_ip_partial",
    "Casbin.ModelProps.C108_history_partial",
    "Casbin.ModelProps.C108_fails",
    "Casbin.TextProps.C108_any_rules",
    "Casbin.TextProps.C108_any_history"
   ],
   "note": "Proved for non-empty policies whose subjects are all blocks. Violated: a rule about another object with a plain address as subject makes the request throw. For any rules and any texts in the request: the rules are read in order and fail one by one as `ipStep` says. Histories may contain loads, saves, rebuilt links and settings."
  },
  {
   "property": "C109",
   "status": "partial",
   "theorems": [
    "Casbin.ModelProps.C109_keymatch_partial",
    "Casbin.ModelProps.C109_keymatch2_partial",
    "Casbin.ModelProps.C109_history_partial",
    "Casbin.ModelProps.C109_fails",
    "Casbin.TextProps.C109_any_rules",
    "Casbin.TextProps.C109_any_history",
    "Casbin.ModelProps.C109_regex_partial"
   ],
   "note": "For non-empty policies whose regular expressions the library accepts; what they match is the library's. Violated: a refused expression in a rule of another subject makes the request throw. For any rules with keymatch_model.conf: they are read in order and fail one by one as `keyStep` says. C109_regex_partial says what is matched for the expressions of C133. Histories may contain loads, saves, rebuilt links and settings."
  },
  {
   "property": "C11",
   "status": "partial",
   "theorems": [
    "Casbin.DecisionProps.C11_history_partial",
    "Casbin.DecisionProps.C11_json_fails",
    "Casbin.DecisionProps.C11_poison_fails"
   ],
   "note": "fails for JSON values and maps: evaluator variables and failed compilations survive requests"
  },
  {
   "property": "C110",
   "status": "partial",
   "theorems": [
    "Casbin.ModelProps.C110_shared",
    "Casbin.ModelProps.C110_resources_partial",
    "Casbin.ModelProps.C110_history_partial",
    "Casbin.ModelProps.C110_fails",
    "Casbin.TextProps.C110_any_shared",
    "Casbin.TextProps.C110_any_length",
    "Casbin.TextProps.C110_any_history"
   ],
   "note": "Violated: the two definitions share one role manager; a role of a resource is a role of the user with the same name. Proved when no name is used for both; C110_shared is the exact answer. C110_any_length and C110_any_history: rules of any length, read in order. Histories may contain loads, saves, rebuilt links and settings."
  },
  {
   "property": "C111",
   "status": "proved",
   "theorems": [
    "Casbin.MapProps.C111_map",
    "Casbin.MapProps.C111_enforce"
   ],
   "note": "For values that are strings."
  },
  {
   "property": "C112",
   "status": "partial",
   "theorems": [
    "Casbin.MapProps.C112_first_partial",
    "Casbin.MapProps.C112_fills",
    "Casbin.MapProps.C112_fails",
    "Casbin.MapProps.C112_name_fails"
   ],
   "note": "Violated: missing values are taken from the request before (C112_fills says exactly how), and an entry whose name is no identifier is a null dereference. Proved for the first request of an enforcer."
  },
  {
   "property": "C113",
   "status": "partial",
   "theorems": [
    "Casbin.MapProps.C113_map_partial",
    "Casbin.MapProps.C113_fails"
   ],
   "note": "Violated: no request of this model is ever granted, because objects are not entered into the symbol table. A map with the attribute as a text works on an enforcer that has not answered a request yet. Histories may contain loads, saves, rebuilt links and settings."
  },
  {
   "property": "C114",
   "status": "partial",
   "theorems": [
    "Casbin.MapProps.C114_extra_partial",
    "Casbin.MapProps.C114_case_fails"
   ],
   "note": "Violated when the name of an entry is a field in another case: it overwrites the field. Proved for entries that are no fields in any case and whose names are identifiers, for matchers without eval and evaluators that have not compiled another matcher."
  },
  {
   "property": "C115",
   "status": "partial",
   "theorems": [
    "Casbin.ReloadProps.C115_set_model_partial",
    "Casbin.ReloadProps.C115_load_model_partial",
    "Casbin.ReloadProps.C115_reload_partial",
    "Casbin.ReloadProps.C115_fails"
   ],
   "note": "Violated for the watcher and the switches: SetModel and LoadModel reset them. Proved for all answers of a history, for a model without role managers, adapters whose loading does not look at role managers (all built-in ones), and iteration orders that depend on the keys of a map only."
  },
  {
   "property": "C116",
   "status": "partial",
   "theorems": [
    "Casbin.FindProps.C116_leftmost_partial",
    "Casbin.FindProps.C116_most_partial",
    "Casbin.FindProps.C116_fails"
   ],
   "note": "Violated for the empty text, for which the loop does not end; proved for every other text."
  },
  {
   "property": "C117",
   "status": "partial",
   "theorems": [
    "Casbin.CallerProps.C117_caller_partial",
    "Casbin.CallerProps.C117_disabled",
    "Casbin.CallerProps.C117_fails"
   ],
   "note": "Violated for an evaluator used with two enforcers: it keeps the roles of the first. Proved for use with one enforcer, matchers without eval(, and all columns given a value before a request."
  },
  {
   "property": "C118",
   "status": "partial",
   "theorems": [
    "Casbin.ManagerProps.C118_replace_partial",
    "Casbin.ManagerProps.C118_fails",
    "Casbin.ManagerProps.C118_asked_partial",
    "Casbin.ManagerProps.C118_world"
   ],
   "note": "Violated once the enforcer has been asked: its evaluator keeps the old role manager. Proved for enforcers not asked before, and for those that get a new evaluator as well, when building the links succeeds; also for one enforcer among several."
  },
  {
   "property": "C119",
   "status": "partial",
   "theorems": [
    "Casbin.WorldProps.C119_fork_partial",
    "Casbin.WorldProps.C119_fails"
   ],
   "note": "Violated: the copy shares model, role manager, adapter and evaluator. Proved for a copy that gets a new model and a new adapter."
  },
  {
   "property": "C12",
   "status": "proved",
   "theorems": [
    "Casbin.DecisionProps.C12_batch",
    "Casbin.DecisionProps.C12_batchEnforce"
   ],
   "note": "string requests (with any number of values)"
  },
  {
   "property": "C120",
   "status": "proved",
   "theorems": [
    "Casbin.WorldProps.C120_isolation",
    "Casbin.WorldProps.C120_new"
   ],
   "note": "For models without role managers, adapters of the user that do not look at role managers (all built-in ones), and iteration orders that depend on the keys of a map only."
  },
  {
   "property": "C121",
   "status": "partial",
   "theorems": [
    "Casbin.CachedThreadProps.C121_emptied_partial",
    "Casbin.CachedThreadProps.C121_stale",
    "Casbin.CachedThreadProps.C121_fails",
    "Casbin.CachedThreadProps.C121_alone"
   ],
   "note": "Violated, for every policy, request and change: a request in progress stores the old answer after the map was emptied. Proved when no request is about to store at that moment, for plain requests (C11) with keys that can be told apart (C48); asking the base class is one step here, C52 shows what overlapping requests do. C121_alone: a call without interference is the sequential one."
  },
  {
   "property": "C122",
   "status": "partial",
   "theorems": [
    "Casbin.DottedProps.C122_dotted_partial",
    "Casbin.DottedProps.C122_exact",
    "Casbin.DottedProps.C122_mapped",
    "Casbin.DottedProps.C122_fails"
   ],
   "note": "Violated when the notations differ and the mask ends within the second or last number of the IPv4 address, and for IPv6 addresses in blocks within ::ffff:0:0/96; C122_exact states the answer outside those blocks."
  },
  {
   "property": "C123",
   "status": "proved",
   "theorems": [
    "Casbin.IPTextProps.C123_answers",
    "Casbin.IPTextProps.C123_throws",
    "Casbin.IPTextProps.C123_unique",
    "Casbin.TextProps.C123_found",
    "Casbin.TextProps.C123_outcome"
   ],
   "note": "The grammar is IsV4, IsText (groups, ellipsis, IPv4 address at the end); leading zeros in any number are part of it, so 00001:: is the address 1::, which stricter grammars refuse. `C123_outcome` gives the outcome for every pair of texts."
  },
  {
   "property": "C124",
   "status": "partial",
   "theorems": [
    "Casbin.LoggingProps.C124_enableLog_partial",
    "Casbin.LoggingProps.C124_enableLog_fails",
    "Casbin.LoggingProps.C124_on",
    "Casbin.LoggingProps.C124_setLogger_fails",
    "Casbin.LoggingProps.C124_disabled"
   ],
   "note": "EnableLog changes no answer in any history; but it switches a copy, so the logger stays as it was, and after SetLogger with a logger that is on every request that would be granted recurses without bound (the code violates the property)."
  },
  {
   "property": "C125",
   "status": "proved",
   "theorems": [
    "Casbin.DecisionProps.C125_settled",
    "Casbin.DecisionProps.C125_failing",
    "Casbin.DecisionProps.C125_in_order",
    "Casbin.DecisionProps.C125_tail"
   ],
   "note": "For supported effect expressions; the texts of eval() rules must not be empty (C16_empty_eval_fails). C125_in_order says that the three cases cover every request."
  },
  {
   "property": "C126",
   "status": "partial",
   "theorems": [
    "Casbin.RbacProps.C126_look_partial",
    "Casbin.RbacProps.C126_add_partial",
    "Casbin.RbacProps.C126_addMany_partial",
    "Casbin.RbacProps.C126_remove_partial",
    "Casbin.RbacProps.C126_removeFiltered",
    "Casbin.RbacProps.C126_update_partial",
    "Casbin.RbacProps.C126_removeMany_fails",
    "Casbin.RbacProps.C126_mixup_fails",
    "Casbin.RbacProps.C126_update_fails"
   ],
   "note": "Violated by RemoveNamedGroupingPolicies, which adds; by rules of which another arrangement is stored; and by replacing a rule by one that is stored already, for which the old rule goes and the answer is false. The theorems cover everything else; the answers and links need automatic building, an adapter that accepts and rules with enough values."
  },
  {
   "property": "C127",
   "status": "partial",
   "theorems": [
    "Casbin.RbacProps.C127_policy_partial",
    "Casbin.RbacProps.C127_grouping_partial",
    "Casbin.RbacProps.C127_remove_fails"
   ],
   "note": "Violated by RemovePolicies and RemoveGroupingPolicies, which add. Rules of which another arrangement is stored and batches with stored rules as in C26-C32 and C126."
  },
  {
   "property": "C128",
   "status": "partial",
   "theorems": [
    "Casbin.RbacProps.C128_roles",
    "Casbin.RbacProps.C128_domain_partial",
    "Casbin.RbacProps.C128_permissions_partial",
    "Casbin.RbacProps.C128_permissionsInDomain_partial",
    "Casbin.RbacProps.C128_permissions_fails"
   ],
   "note": "Violated for domains with a colon (C91_colon_fails) and for the user without a name, for whom every rule is listed. Models with one grouping type of two or three places."
  },
  {
   "property": "C129",
   "status": "partial",
   "theorems": [
    "Casbin.CachedProps.C129_batch_partial",
    "Casbin.CachedProps.C129_batchWithMatcher",
    "Casbin.CachedProps.C129_batch_fails",
    "Casbin.CachedProps.C129_stale_fails"
   ],
   "note": "Violated by values that contain the separator of the keys, and by changes of the rules between batches, after which the two calls disagree (as C48, C50)."
  },
  {
   "property": "C13",
   "status": "partial",
   "theorems": [
    "Casbin.DecisionProps.C13_empty_partial",
    "Casbin.DecisionProps.C13_fails",
    "Casbin.DecisionProps.C13_exact",
    "Casbin.DecisionProps.C13_eval"
   ],
   "note": "Fails for deny-override and for a request the matcher accepts on empty fields (C13_fails). C13_exact: these are the only cases in which it is granted; C13_eval: a matcher with eval( throws."
  },
  {
   "property": "C130",
   "status": "partial",
   "theorems": [
    "Casbin.SwitchProps.C130_switches",
    "Casbin.SwitchProps.C130_save_off",
    "Casbin.SwitchProps.C130_save_on_partial",
    "Casbin.SwitchProps.C130_notify_off",
    "Casbin.SwitchProps.C130_notify_on",
    "Casbin.SwitchProps.C130_enforce_off",
    "Casbin.SwitchProps.C130_build_load_partial",
    "Casbin.SwitchProps.C130_adapter",
    "Casbin.SwitchProps.C130_watcher",
    "Casbin.SwitchProps.C130_build_fails"
   ],
   "note": "Violated for building: editing grouping rules makes links although it is switched off. Updates never tell the adapter (C44_update_fails). Histories are of one enforcer whose objects are not shared (see C111-C117 for sharing)."
  },
  {
   "property": "C131",
   "status": "partial",
   "theorems": [
    "Casbin.PrintProps.C131_address",
    "Casbin.PrintProps.C131_same",
    "Casbin.PrintProps.C131_network",
    "Casbin.PrintProps.C131_mask_partial",
    "Casbin.PrintProps.C131_mask_fails",
    "Casbin.PrintProps.C131_mask_witness_fails",
    "Casbin.PrintProps.C131_v6_fails",
    "Casbin.PrintProps.C131_equal",
    "Casbin.PrintProps.C131_equal_v6",
    "Casbin.PrintProps.C131_equal_fails",
    "Casbin.PrintProps.C131_equal_short"
   ],
   "note": "Violated: the text of the mask of every IPv4 block whose length is no multiple of eight is no address (255.255.255.65408); IPv6 addresses are written as the last four elements; one address in two notations is not equal to itself. Proved for IPv4 addresses and networks, masks of whole bytes, and equality within one notation."
  },
  {
   "property": "C132",
   "status": "partial",
   "theorems": [
    "Casbin.PrintProps.C132_role",
    "Casbin.PrintProps.C132_print",
    "Casbin.PrintProps.C132_shows",
    "Casbin.PrintProps.C132_linked",
    "Casbin.PrintProps.C132_fails"
   ],
   "note": "Violated without roles: the code dereferences the end of the container. Otherwise proved for every order of the container."
  },
  {
   "property": "C133",
   "status": "proved",
   "theorems": [
    "Casbin.RegexProps.C133_matches",
    "Casbin.RegexProps.C133_unique",
    "Casbin.RegexProps.C133_parentheses",
    "Casbin.RegexProps.C133_plain",
    "Casbin.RegexProps.C133_oneOf",
    "Casbin.RegexProps.C133_quantifiers"
   ],
   "note": "std::regex is not part of the project; it is modelled after the C++ standard (recursive descent reader, backtracking matcher), and the theorems are about that model. Back references, assertions, counts in braces and a quantifier after a quantifier are up to the library."
  },
  {
   "property": "C134",
   "status": "partial",
   "theorems": [
    "Casbin.ConfigProps.C134_exact",
    "Casbin.ConfigProps.C134_nearest_partial",
    "Casbin.ConfigProps.C134_monotone",
    "Casbin.ConfigProps.C134_overflow",
    "Casbin.ConfigProps.C134_none",
    "Casbin.ConfigProps.C134_fails",
    "Casbin.ConfigProps.C134_values"
   ],
   "note": "The full statement is false: the number is rounded twice (C134_fails), so it need not be the nearest, though no other float lies between (C134_nearest_partial). 2^128 and above is undefined behaviour (C134_overflow). atof is modelled after the C standard; inf, nan and hexadecimal numbers are not."
  },
  {
   "property": "C135",
   "status": "partial",
   "theorems": [
    "Casbin.HistoryProps.C135_determined",
    "Casbin.HistoryProps.C135_history_partial",
    "Casbin.HistoryProps.C135_fails"
   ],
   "note": "The full statement is false: adding a rearrangement of a stored grouping rule stores nothing but links roles (C135_fails). C135_history_partial covers histories of edits, requests, loads, saves, rebuilt links and settings in which each editing call returns and is faithful and each load loads its rules, on enforcers that begin with the links of their rules, with matchers without eval. C135_determined needs no history."
  },
  {
   "property": "C136",
   "status": "partial",
   "theorems": [
    "Casbin.SharingProps.C136_deaf",
    "Casbin.SharingProps.C136_load_partial",
    "Casbin.SharingProps.C136_fails"
   ],
   "note": "The full statement is false: SetUpdateCallback keeps nothing, so that no call on other instances ever changes an instance (C136_deaf, for every sequence of calls; C136_fails is a concrete case). C136_load_partial: an instance with the same definitions that calls LoadPolicy itself after the save answers every request alike, for rules made of words and lines that fit the buffer."
  },
  {
   "property": "C137",
   "status": "partial",
   "theorems": [
    "Casbin.PythonProps.C137_call_partial",
    "Casbin.PythonProps.C137_taken_partial",
    "Casbin.PythonProps.C137_fails",
    "Casbin.PythonProps.C137_default_fails"
   ],
   "note": "The full statement is false: 34 methods of Enforcer, among them those that list the rules or take several rules, never give Python a result (C137_fails), and optional parameters must be given (C137_default_fails). For all other calls it is proved: a call is refused without a change or is the C++ call of that name (C137_call_partial), and a method with known types takes the values of these types (C137_taken_partial). pybind11 is modelled after its documentation."
  },
  {
   "property": "C138",
   "status": "partial",
   "theorems": [
    "Casbin.PythonProps.C138_partial",
    "Casbin.PythonProps.C138_enforcer_partial",
    "Casbin.PythonProps.C138_model",
    "Casbin.PythonProps.C138_fails"
   ],
   "note": "The full statement is false: RemoveFilteredPolicy of a Model removes the rules and then raises a TypeError (C138_model in general, C138_fails concretely). It holds for methods that return known types, and for all methods of Enforcer, since those of its methods that return rules only look at them; role managers may still gain a name without links."
  },
  {
   "property": "C139",
   "status": "partial",
   "theorems": [
    "Casbin.MakingProps.C139_init_partial",
    "Casbin.MakingProps.C139_constructors",
    "Casbin.MakingProps.C139_load_model_partial",
    "Casbin.MakingProps.C139_fails",
    "Casbin.MakingProps.C139_filtered_fails",
    "Casbin.MakingProps.C139_path_fails"
   ],
   "note": "The full statement is false: with an empty path of the policy file the constructor works and InitWithFile throws (C139_fails); a constructor loads all rules of a filtered adapter and an Init method none (C139_filtered_fails); LoadModel reads the file of an earlier model after InitWithModelAndAdapter, SetModel or an Init method that threw (C139_path_fails). Otherwise it is proved for all histories; all constructors agree without exception (C139_constructors). The mutex of Config (C57) is added in C179."
  },
  {
   "property": "C14",
   "status": "partial",
   "theorems": [
    "Casbin.HashProps.C14_hash_partial",
    "Casbin.HashProps.C14_blank_fails",
    "Casbin.HashProps.C14_columns_fails",
    "Casbin.HashProps.C14_effect_fails",
    "Casbin.HashProps.C14_matcher_fails",
    "Casbin.HashProps.C14_nul_fails",
    "Casbin.SetStorageProps.C14_text_partial",
    "Casbin.SetStorageProps.C14_twice_fails"
   ],
   "note": "Proved for any number of columns under allow-override when the policy columns are the request columns in the same order and the request is not all empty and has no NUL character. The code violates it for blank requests, requests with a NUL character, reordered policy columns, an effect column and requests with their own matcher. C14_text_partial starts from the text of the matcher: it passes the test, is read as the conjunction, and the two containers agree. A matcher with one comparison written twice gets a set and other answers (C14_twice_fails)."
  },
  {
   "property": "C140",
   "status": "partial",
   "theorems": [
    "Casbin.CachedProps.C140_users_partial",
    "Casbin.CachedProps.C140_off",
    "Casbin.CachedProps.C140_stored",
    "Casbin.CachedProps.C140_fails"
   ],
   "note": "The full statement is false after a change of the rules, which does not empty the map (C140_fails); C140_stored says what is listed then. Proved for every history of requests, by vector, on a policy that does not change, with the limits of C48; without limits while the cache is off (C140_off)."
  },
  {
   "property": "C141",
   "status": "partial",
   "theorems": [
    "Casbin.SetStorageProps.C141_set_partial",
    "Casbin.SetStorageProps.C14_text_partial",
    "Casbin.SetStorageProps.C141_fails",
    "Casbin.SetStorageProps.C141_dots_fails",
    "Casbin.SetStorageProps.C141_written_fails",
    "Casbin.SetStorageProps.C141_nested_fails"
   ],
   "note": "The full statement is false: a comparison written twice counts for another one (C141_fails), the dots of the pattern match any character (C141_dots_fails), an equivalent matcher without blanks is not recognised (C141_written_fails), nor is one with a name such as roro beside ro (C141_nested_fails). C141_set_partial says exactly which conjunctions of comparisons pass; C14_text_partial says that the right ones do, and what is answered then."
  },
  {
   "property": "C142",
   "status": "partial",
   "theorems": [
    "Casbin.RoleProps.C142_same",
    "Casbin.RoleProps.C142_walks_partial",
    "Casbin.RoleProps.C142_once_partial",
    "Casbin.RoleProps.C142_bound_partial",
    "Casbin.RoleProps.C142_fails"
   ],
   "note": "The full statement is false: the search remembers no role it has been to, so it makes one call for each walk (C142_walks_partial); on L layers of w roles an unsuccessful search makes at least w^L calls for L*w+2 names (C142_fails). True when no role is reached in two ways (C142_once_partial); C142_bound_partial bounds the work by the number of direct roles and the hierarchy bound. C142_same says that the counted search is the search of the model."
  },
  {
   "property": "C143",
   "status": "partial",
   "theorems": [
    "Casbin.Custom.C143_decides_partial",
    "Casbin.Custom.C143_index_fails",
    "Casbin.Custom.C143_empty_fails",
    "Casbin.Custom.C143_set_fails"
   ],
   "note": "The full statement is false in three ways. explainIndex is not initialised, so an effector that names no rule leads to undefined behaviour (C143_index_fails). With an empty policy the effector is told of a rule that matched (C143_empty_fails). With the rules in a set it is told only of the rule equal to the request (C143_set_fails). True for effectors without objects of their own that write the index when they decide, and policies kept in a vector (C143_decides_partial)."
  },
  {
   "property": "C144",
   "status": "partial",
   "theorems": [
    "Casbin.Custom.C144_rules_partial",
    "Casbin.Custom.C144_library",
    "Casbin.Custom.C144_agree",
    "Casbin.Custom.C144_refused_partial",
    "Casbin.Custom.C144_refused_fails"
   ],
   "note": "The full statement is false: the loop over the rules does not look at what Eval returns (C144_refused_fails). A refused matcher grants nothing if CheckType does not return after a refusal, as with ExprtkEvaluator (C144_refused_partial). C144_rules_partial: which rules count, for evaluators that find a truth value from the text and what they have been told, and a policy kept in a vector. C144_library: with the classes of the library the general request is that of the other properties; C144_agree: evaluators and effectors that answer alike decide alike."
  },
  {
   "property": "C145",
   "status": "partial",
   "theorems": [
    "Casbin.Custom.Growth.C145_tables_partial",
    "Casbin.Custom.Growth.C145_growth",
    "Casbin.Custom.Growth.C145_fails",
    "Casbin.Custom.Growth.C145_same"
   ],
   "note": "The full statement is false: each request adds nine function objects, and one for each grouping type, to the member Functions of the evaluator, which the enforcer keeps (C145_growth, C145_fails). True of the symbol table (C145_tables_partial). C145_same says that the evaluator with Functions answers as the one of the other properties."
  },
  {
   "property": "C146",
   "status": "partial",
   "theorems": [
    "Casbin.Custom.Questions.C146_stored",
    "Casbin.Custom.Questions.C146_roles_partial",
    "Casbin.Custom.Questions.C146_answers_partial",
    "Casbin.Custom.Questions.C146_fails",
    "Casbin.Custom.Questions.C146_section_fails"
   ],
   "note": "The full statement is false: with a matching function (AddMatchingFunc) HasLink and GetRoles enter the name asked about and its links in the role manager, so that GetUsersForRole answers differently after a request (C146_fails); a listing of a section the model has not makes an empty one (C146_section_fails). C146_stored: definitions, rules, adapter, watcher and switches are as before, and role managers only gain links that the matching function accepts. Without a matching function the role managers are as before (C146_roles_partial) and so are the answers (C146_answers_partial; a request after requests is C11)."
  },
  {
   "property": "C147",
   "status": "partial",
   "theorems": [
    "Casbin.CachedWorldProps.C147_copy",
    "Casbin.CachedWorldProps.C147_move",
    "Casbin.CachedWorldProps.C147_maps",
    "Casbin.CachedWorldProps.C147_fresh",
    "Casbin.CachedWorldProps.C147_family_partial",
    "Casbin.CachedWorldProps.C147_fails"
   ],
   "note": "C147_copy, C147_move, C147_maps and C147_fresh are for all worlds and all operations. C147_family_partial: as long as no rule is changed all copies answer like the enforcer, for the requests of C48. The full statement is false when rules change: the copies share the rules but not the map, so InvalidateCache on the enforcer through which a rule was removed leaves the copy granting (C147_fails)."
  },
  {
   "property": "C148",
   "status": "partial",
   "theorems": [
    "Casbin.TickerProps.C148_in_time_partial",
    "Casbin.TickerProps.C148_ticks",
    "Casbin.TickerProps.C148_fails",
    "Casbin.TickerProps.C148_kept_fails"
   ],
   "note": "The full statement is false: the timer does not wait for the last load, so any number can be under way at once (C148_fails), and _futures2 keeps an entry for every load ever made (C148_kept_fails). If each load is finished before the interval after it ends, at most one is under way and it begins after all others are finished (C148_in_time_partial). One load is launched in each round (C148_ticks)."
  },
  {
   "property": "C149",
   "status": "partial",
   "theorems": [
    "Casbin.AutoThreadProps.C149_one",
    "Casbin.AutoThreadProps.C149_stops_partial",
    "Casbin.AutoThreadProps.C149_serial_partial",
    "Casbin.AutoThreadProps.C149_fails",
    "Casbin.AutoThreadProps.C149_stop_fails",
    "Casbin.AutoThreadProps.C149_null_fails",
    "Casbin.AutoThreadProps.C149_lost_stop_fails"
   ],
   "note": "The full statement is false: the flag is tested and set in two steps and the pointer is not protected, so of two threads that start one uses the ticker the other has destroyed (C149_fails), and so does a stop that overlaps with a start (C149_stop_fails). For all schedules no ticker is forgotten (C149_one). Any number of overlapping stops is safe (C149_stops_partial), and so are calls that do not overlap, if the first is a start (C149_serial_partial; C86).  C149_null_fails and C149_lost_stop_fails are two more schedules that go wrong: a null pointer is used, and a stop has no effect."
  },
  {
   "property": "C15",
   "status": "partial",
   "theorems": [
    "Casbin.DecisionProps.C15_custom_matcher_partial",
    "Casbin.DecisionProps.C15_fails"
   ],
   "note": "fails with set storage"
  },
  {
   "property": "C150",
   "status": "proved",
   "theorems": [
    "Casbin.StoreProps.C150_call",
    "Casbin.StoreProps.C150_history",
    "Casbin.StoreProps.C150_answer"
   ],
   "note": "The reference has the behaviour of the code as it is: rules are compared without regard to the order of their values, RemovePolicies adds (C31), an update onto a stored rule loses the old rule (C32), a filter that reaches outside a rule is undefined behaviour (C34_exact). C150_answer is for policy rules and adapters that do not reject; the rules themselves need neither."
  },
  {
   "property": "C151",
   "status": "proved",
   "theorems": [
    "Casbin.CachedProps.C151_answer",
    "Casbin.CachedProps.C151_answer_map",
    "Casbin.CachedProps.C151_cases",
    "Casbin.CachedProps.C151_batch"
   ],
   "note": "One thread. The histories of C151_answer have no batches; C151_batch says which single requests a batch stands for. This is what C48, C49, C50 and C82 come from: two requests with one key (C48_fails, C82_fails) and a policy that has changed (C50_fails) are the cases in which the first answer is not the enforcer's."
  },
  {
   "property": "C152",
   "status": "proved",
   "theorems": [
    "Casbin.KeyPatternProps.C152_keyMatch2",
    "Casbin.KeyPatternProps.C152_keyMatch3",
    "Casbin.KeyPatternProps.C152_dots",
    "Casbin.KeyPatternProps.C152_other"
   ],
   "note": "The exact form of C64_fails and C80_fails: which further paths a dot lets in. Not covered: the characters of regular expressions other than '.', '+' and '/*', and what std::regex does beyond the subset in KeyPatterns.lean."
  },
  {
   "property": "C153",
   "status": "partial",
   "theorems": [
    "Casbin.PatternRoles.C153_history",
    "Casbin.PatternRoles.C153_order",
    "Casbin.PatternRoles.C153_rules",
    "Casbin.PatternRoles.C153_expected_partial",
    "Casbin.PatternRoles.C153_fails",
    "Casbin.PatternRoles.C153_itself",
    "Casbin.PatternRoles.C153_itself_fails",
    "Casbin.PatternRoles.C153_call",
    "Casbin.PatternRoles.C153_domains",
    "Casbin.PatternRoles.C153_anyDomain_fails"
   ],
   "note": "The full statement is false: a match on the way counts only if the pattern is entered before the name that matches it is entered for the last time (C153_fails), and a name of a rule that matches nothing, not even itself, has no users at all (C153_itself_fails, C153_itself). C153_rules is the exact answer for every function and every order of the rules, C153_history the exact answer after any calls, C153_order that the container's order does not matter. C153_expected_partial: the statement holds when every name matches itself and patterns come first. One role definition.  C153_call: the same from the call of AddNamedMatchingFunc, which answers yes. C153_domains gives the exact answer of g(u, r, d) when the rules of g name a domain; C153_anyDomain_fails: a rule for the domain * gives nothing in other domains, whatever the matching function."
  },
  {
   "property": "C154",
   "status": "partial",
   "theorems": [
    "Casbin.ExceptionProps.C154_when",
    "Casbin.ExceptionProps.C154_left",
    "Casbin.ExceptionProps.C154_again",
    "Casbin.ExceptionProps.C154_partial",
    "Casbin.ExceptionProps.C154_fails",
    "Casbin.ExceptionProps.C154_short",
    "Casbin.ExceptionProps.C154_blocked",
    "Casbin.SetStoreProps.C154_set",
    "Casbin.SetStoreProps.C154_set_again"
   ],
   "note": "The full statement is false (C154_fails): the rules are changed before the adapter is asked. C154_when says exactly when a call about policy rules raises an exception, C154_left what it leaves behind (the change is made, the watcher is not told), C154_again that repeating the call answers false and does not reach the adapter, C154_partial where nothing is raised. For grouping rules: a rule with too few values is stored and raises (C154_short), and from then on no call that rebuilds the roles returns (C154_blocked). C154_set, C154_set_again: the same for rules kept in a set."
  },
  {
   "property": "C155",
   "status": "partial",
   "theorems": [
    "Casbin.DestroyProps.C155_order",
    "Casbin.DestroyProps.C155_safe",
    "Casbin.DestroyProps.C155_base_fails",
    "Casbin.DestroyProps.C155_waits_fails",
    "Casbin.DestroyProps.C155_partial"
   ],
   "note": "C155_order: no use of a destroyed member just if the ticker is destroyed before all that the tasks use; C155_safe: so it is for the class as declared, and when the destructor is done no thread is left. The full statement is false twice: the destructor may wait for ever (C155_waits_fails, the deadlock of C53), and deleting through a pointer to Enforcer, whose destructor is not virtual, leaves the ticker running (C155_base_fails). C155_partial: otherwise the destructor ends."
  },
  {
   "property": "C156",
   "status": "partial",
   "theorems": [
    "Casbin.SectionProps.C156_add",
    "Casbin.SectionProps.C156_remove",
    "Casbin.SectionProps.C156_remove_fails",
    "Casbin.SectionProps.C156_filtered_partial",
    "Casbin.SectionProps.C156_filtered_fails",
    "Casbin.SectionProps.C156_update_partial",
    "Casbin.SectionProps.C156_update_fails"
   ],
   "note": "C156_add: adding keeps them together. C156_remove, C156_remove_fails: removing a stored rule removes no link, so every answer of the grouping function stays. C156_filtered_partial and C156_update_partial: the exact links afterwards, and the exact condition under which they are those of the rules; C156_filtered_fails, C156_update_fails: a stored rule without its link. Missing: rules too short for the filter or the role definition, old rules of an update that are not stored or have a rearrangement stored."
  },
  {
   "property": "C157",
   "status": "proved",
   "theorems": [
    "Casbin.OtherTypes.C157_reads",
    "Casbin.OtherTypes.C157_history",
    "Casbin.OtherTypes.C157_load"
   ],
   "note": "C157_reads: one decision, including what it does to evaluator and role managers, for models that agree. C157_history: histories of requests and edits of other policy types. C157_load: a policy loads like the policy without the lines of other types, when those lines can be read (a line of an undefined type raises an exception)."
  },
  {
   "property": "C158",
   "status": "partial",
   "theorems": [
    "Casbin.RecoverProps.C158_partial",
    "Casbin.RecoverProps.C158_vector_partial",
    "Casbin.RecoverProps.C158_fails"
   ],
   "note": "C158_partial: holds when the container of the rules is of the same kind in both enforcers. C158_vector_partial: holds for rules kept in a vector, compared with the enforcer itself. C158_fails: with rules kept in a set, a RemoveFilteredPolicy that removes nothing changes the answer to a blank request after the next load. Histories that run into undefined behaviour are outside the meaning of the statement; role managers with a matching function are excluded."
  },
  {
   "property": "C159",
   "status": "proved",
   "theorems": [
    "Casbin.Custom.Effort.C159_same",
    "Casbin.Custom.Effort.C159_compiled",
    "Casbin.Custom.Effort.C159_once"
   ],
   "note": "C159_same: the evaluator with a record of its work answers as the one of the other properties. C159_compiled: the compiled texts are those that changed. C159_once: one matcher, at most one compilation."
  },
  {
   "property": "C16",
   "status": "partial",
   "theorems": [
    "Casbin.DecisionProps.C16_unsupported_effect",
    "Casbin.DecisionProps.C16_failed_rule",
    "Casbin.DecisionProps.C16_failed_matcher_partial",
    "Casbin.DecisionProps.C16_empty_eval_fails"
   ],
   "note": "fails for an empty eval() text on a new enforcer"
  },
  {
   "property": "C160",
   "status": "partial",
   "theorems": [
    "Casbin.Custom.Effort.C160_bound",
    "Casbin.Custom.Effort.C160_exact_partial",
    "Casbin.Custom.Effort.C160_fails"
   ],
   "note": "C160_fails: every answered request with rules evaluates at least twice as often as it looks at rules. C160_exact_partial: exactly two, three or five evaluations for a rule, as the value is 0, 1 or another one, for rules kept in a vector and role managers without matching function. C160_bound: at most five for each rule, for any request and any outcome."
  },
  {
   "property": "C161",
   "status": "partial",
   "theorems": [
    "Casbin.ReplicaProps.C161_call_partial",
    "Casbin.ReplicaProps.C161_history_partial",
    "Casbin.ReplicaProps.C161_update_fails",
    "Casbin.ReplicaProps.C161_batch_fails",
    "Casbin.ReplicaProps.C161_rearranged_fails",
    "Casbin.ReplicaProps.C161_fails"
   ],
   "note": "C161_call_partial: exactly which calls keep store and model the same (vector storage). C161_history_partial: histories of them, other policy types edited at will. The property is false: updates make no call (C161_update_fails), RemovePolicies adds to the model (C161_batch_fails), RemovePolicy removes a rearrangement that the store keeps (C161_rearranged_fails); C161_fails: a permission taken away is granted again after a restart."
  },
  {
   "property": "C162",
   "status": "partial",
   "theorems": [
    "Casbin.Factory.C162_any_partial",
    "Casbin.Factory.C162_same_partial",
    "Casbin.Factory.C162_turns_partial",
    "Casbin.Factory.C162_fails",
    "Casbin.Factory.C162_null_fails",
    "Casbin.Factory.C162_kept",
    "Casbin.Factory.C162_grant_fails"
   ],
   "note": "The property is false: C162_fails: two threads about to make a grouping function with the same number of parameters, in any state; the second gets the role manager of the other enforcer, keeps it (C162_kept) and grants what its own policy denies (C162_grant_fails). C162_null_fails: a null function. C162_any_partial: every schedule hands out objects of the right kind made for some thread, or null; C162_same_partial: right or null for functions without role manager; C162_turns_partial: right when calls do not overlap."
  },
  {
   "property": "C163",
   "status": "partial",
   "theorems": [
    "Casbin.Owner.C163_library",
    "Casbin.Owner.C163_decides_partial",
    "Casbin.Owner.C163_model_fails",
    "Casbin.Owner.C163_null_fails",
    "Casbin.Owner.C163_grant_fails"
   ],
   "note": "The property is false: SetModel and a successful LoadModel put the default effector back (C163_model_fails: every later answer is as if none had been given; C163_grant_fails: a refused request is granted), and a null effector is called through (C163_null_fails). C163_decides_partial: with every other call in between, the effector decides. Missing: effectors with objects of their own, effectors that leave the rule unset (C143_index_fails), policies without a candidate (C143_empty_fails). C163_library: without SetEffector the answers are those of the other properties."
  },
  {
   "property": "C164",
   "status": "partial",
   "theorems": [
    "Casbin.Kept.C164_library",
    "Casbin.Kept.C164_clean_partial",
    "Casbin.Kept.C164_fails",
    "Casbin.Kept.C164_roles_fails",
    "Casbin.Kept.C164_leftover_fails",
    "Casbin.Kept.C164_value_fails"
   ],
   "note": "The property is false: Clean empties only one of the function stores of exprtk; C164_fails: for every evaluator that has met a function, a request after Clean whose matcher calls it uses a destroyed object (C164_roles_fails: the role model, after a granted request). C164_clean_partial: for matchers without functions the cleaned evaluator answers as a new one. C164_library: an evaluator never cleaned is the one of the other properties. C164_leftover_fails: without Clean, values of the request before grant the next.  C164_value_fails: asking for the value after Clean uses what was destroyed."
  },
  {
   "property": "C165",
   "status": "partial",
   "theorems": [
    "Casbin.Direct.C165_value",
    "Casbin.Direct.C165_eval_partial",
    "Casbin.Direct.C165_again",
    "Casbin.Direct.C165_fails",
    "Casbin.Direct.C165_old_fails",
    "Casbin.Direct.C165_check_fails",
    "Casbin.Direct.C165_empty_fails",
    "Casbin.Direct.C165_name_fails",
    "Casbin.Direct.C165_keyMatch"
   ],
   "note": "C165_value: after any calls, when Eval says yes to a text, GetBoolean is its value under the values given last. C165_eval_partial: what Eval answers to a text other than the last one. The rest is false: the same text again gets the old answer though what it lacked was entered (C165_again, C165_fails); after a refused text GetBoolean answers for the one before (C165_old_fails, C165_check_fails); a new evaluator takes the empty text for true (C165_empty_fails); an identifier named like a word of exprtk is a null dereference (C165_name_fails). C165_keyMatch: what the tests of the library assert, for all texts. Left out: names that are both identifier and function, EnableGet and GetString."
  },
  {
   "property": "C166",
   "status": "partial",
   "theorems": [
    "Casbin.Locality.C166_partial",
    "Casbin.Locality.C166_putsIn_partial",
    "Casbin.Locality.C166_takesOut_partial",
    "Casbin.Locality.C166_user_partial",
    "Casbin.Locality.C166_swapped_fails",
    "Casbin.Locality.C166_refused_fails",
    "Casbin.Locality.inStep_history",
    "Casbin.Locality.inStep_new"
   ],
   "note": "C166_partial: what a call is about when it changes an answer; C166_putsIn_partial, C166_takesOut_partial: the direction; C166_user_partial: giving or taking the roles of a user nobody has as a role changes only their own answers. inStep_history: the states are those after any faithful history. Rules taken out may have the values in another order (C166_swapped_fails), and a refused grouping rule still gives the role (C166_refused_fails). Left out: requests with empty object and action, states whose links are not those of the rules, the set storage."
  },
  {
   "property": "C167",
   "status": "partial",
   "theorems": [
    "Casbin.Tenants.C167_partial",
    "Casbin.Tenants.C167_history_partial",
    "Casbin.Tenants.C167_swapped_fails",
    "Casbin.Tenants.inStepD_new",
    "Casbin.Tenants.inStepD_edit"
   ],
   "note": "C167_partial: what a call is about when it changes an answer. C167_history_partial: any calls about other domains leave the answers in this one. A removal may take out a rule of another domain that has the same values in another order (C167_swapped_fails), so the calls are told apart by all rules they may take out. Left out: domains with a colon (C70_fails), the empty domain, states whose links are not those of the rules (C23), the set storage."
  },
  {
   "property": "C168",
   "status": "partial",
   "theorems": [
    "Casbin.Getting.C168_partial",
    "Casbin.Getting.C168_eval_partial",
    "Casbin.Getting.C168_keyGet",
    "Casbin.Getting.C168_refused_fails",
    "Casbin.Getting.C168_value_fails",
    "Casbin.Getting.C168_identifier_fails",
    "Casbin.Getting.C168_name_fails",
    "Casbin.Getting.C168_matcher_fails"
   ],
   "note": "C168_partial: for every history that keeps the names apart, the string is the value of the right side. C168_keyGet: the test for all keys. The property fails when an identifier has the name given to EnableGet (C168_identifier_fails), when exprtk does not take the name (C168_name_fails), when the text is refused (C168_refused_fails) and when it assigns nothing (C168_value_fails). A matcher that is only a call of keyGet never holds (C168_matcher_fails). Left out: Clean, several assignments in a text, right sides with the evaluator's own variable."
  },
  {
   "property": "C169",
   "status": "partial",
   "theorems": [
    "Casbin.SetStoreProps.C169_call",
    "Casbin.SetStoreProps.C169_history",
    "Casbin.SetStoreProps.C169_agree_partial",
    "Casbin.SetStoreProps.C169_order_fails",
    "Casbin.SetStoreProps.C169_twice_fails"
   ],
   "note": "C169_call, C169_history: what each call may answer and leave, for every order of iteration and all arguments, also after a filter has made a vector of the set. C169_agree_partial: where no two rules have the same values and no batch brings such rules, answers and rules are those of a vector, hence the same for every order. False otherwise: which of two rules with the same values a removal takes depends on the order (C169_order_fails); a rule repeated in a batch is in a vector twice (C169_twice_fails)."
  },
  {
   "property": "C17",
   "status": "proved",
   "theorems": [
    "Casbin.RoleProps.C17_hasLink",
    "Casbin.RoleProps.C17_hasLink_domains"
   ],
   "note": ""
  },
  {
   "property": "C170",
   "status": "partial",
   "theorems": [
    "Casbin.Revoke.C170_user_partial",
    "Casbin.Revoke.C170_roles_partial",
    "Casbin.Revoke.C170_permissions_partial",
    "Casbin.Revoke.C170_role_partial",
    "Casbin.Revoke.C170_permission_partial",
    "Casbin.Revoke.C170_own_partial",
    "Casbin.Revoke.C170_one_role_partial",
    "Casbin.Revoke.C170_domains_user_partial",
    "Casbin.Revoke.C170_domain_role_partial",
    "Casbin.Revoke.C170_acl_fails",
    "Casbin.Revoke.C170_raised_fails",
    "Casbin.Revoke.C170_swapped_fails",
    "Casbin.Revoke.C170_inherited_fails"
   ],
   "note": "The exact answers after each call, from the rules stored before it, in every state whose links are those of the rules (Locality.inStep_history). The property is false: without a section g DeleteUser dereferences a null pointer (C170_acl_fails); a call that raises an exception leaves the user with their own rules (C170_raised_fails); with the values stored in another order a removal answers true and the user is granted as before (C170_swapped_fails); the name of a deleted role keeps what its own roles give (C170_inherited_fails)."
  },
  {
   "property": "C171",
   "status": "partial",
   "theorems": [
    "Casbin.Raising.C171_calls",
    "Casbin.Raising.C171_same",
    "Casbin.Raising.C171_when",
    "Casbin.Raising.C171_left",
    "Casbin.Raising.C171_left_ask",
    "Casbin.Raising.C171_blocked_fails"
   ],
   "note": "The first half is C171_calls (for every function and all calls), with the exact condition under which HasLink answers (C171_when) and exactly what a failing AddLink or HasLink leaves (C171_left, C171_left_ask). The second half is false: AddLink enters the name before it asks the function, so a name the function raises on stays, and after that every HasLink of two different names raises, whatever is called except Clear (C171_blocked_fails)."
  },
  {
   "property": "C172",
   "status": "partial",
   "theorems": [
    "Casbin.Safe.C172_new",
    "Casbin.Safe.C172_call",
    "Casbin.Safe.C172_history",
    "Casbin.Safe.C172_shape",
    "Casbin.Safe.C172_shape_linked",
    "Casbin.Safe.C172_links",
    "Casbin.Safe.C172_linked",
    "Casbin.Safe.C172_text",
    "Casbin.Safe.C172_file",
    "Casbin.Safe.C172_newline_fails",
    "Casbin.Safe.C172_batch_fails",
    "Casbin.Safe.C172_short_fails",
    "Casbin.Safe.C172_undefined_fails",
    "Casbin.Safe.C172_unlinked_fails",
    "Casbin.Safe.C172_loaded",
    "Casbin.Safe.C172_new_linked",
    "Casbin.Safe.C172_model",
    "Casbin.Safe.C172_rbac",
    "Casbin.Safe.C172_cached_call",
    "Casbin.Safe.C172_cached_history",
    "Casbin.Safe.C172_synced_exact",
    "Casbin.Safe.C172_synced_call",
    "Casbin.Safe.C172_synced_history",
    "Casbin.Safe.C172_loadModel",
    "Casbin.Safe.C172_init"
   ],
   "note": "As stated it is false; the five witnesses each leave out one condition. With the conditions (policy types the model defines, rules and filters of at least and at most the number of values of their type, batches only with an adapter that takes them or without automatic saving, an adapter whose text consists of such rules, roles asked for once there are links) it is proved for all histories, from the constructor on, exceptions and unbounded recursion included; C172_shape and C172_shape_linked need no knowledge of the states in between. C172_model: a model read from any text starts in order; C172_rbac: the whole way from rbac_model.conf and a policy text. That a text SavePolicy writes can be loaded again is C42. Missing: the calls that Method does not have (the C++ calls that are the same with a fixed type are covered through it); LoadModel and InitWithModelAndAdapter, which it does not have, are C172_loadModel and C172_init. C172_cached_*: the caching enforcer, whatever its map holds. C172_synced_exact: a call of the synchronised enforcer, used from one thread, that has what the same call of Enforcer needs is undefined exactly if it takes the lock twice (C51)."
  },
  {
   "property": "C173",
   "status": "partial",
   "theorems": [
    "Casbin.Renaming.C173_rules",
    "Casbin.Renaming.C173_answer",
    "Casbin.Renaming.C173_decision",
    "Casbin.Renaming.C173_history",
    "Casbin.Renaming.C173_domains_partial",
    "Casbin.Renaming.C173_domains_fails",
    "Casbin.Renaming.C173_empty_fails",
    "Casbin.Renaming.C173_listings",
    "Casbin.Renaming.C173_all_listings"
   ],
   "note": "C173_rules and C173_answer: the rules and the answers of editing calls, for every model, adapter and history, as long as the empty text keeps its name (C173_empty_fails: in a filter it stands for any name). C173_history: decisions of the RBAC model after any history of calls that return and keep links and rules together. With domains it is false (C173_domains_fails: names with :: run into each other); C173_domains_partial: true for domains without a colon. C173_listings: what the listings of a policy type give after any history, in the same order, and whether they are undefined. C173_all_listings: the same for GetAllSubjects, GetAllObjects, GetAllActions and GetAllRoles, which go through all types. Requests with empty object and action are left out."
  },
  {
   "property": "C174",
   "status": "partial",
   "theorems": [
    "Casbin.Commute.C174_rules",
    "Casbin.Commute.C174_answer",
    "Casbin.Commute.C174_decision",
    "Casbin.Commute.C174_swapped_fails",
    "Casbin.Commute.C174_domains_partial",
    "Casbin.Retry.C174_set_partial"
   ],
   "note": "C174_rules and C174_answer: every model, adapter, state of the links and pair of calls on vector storage, whether or not the calls return, as long as no rule one call names has the values of a rule the other names, in whatever order, and rules are long enough for filters. Different rules alone are not enough (C174_swapped_fails: the code compares rules up to the order of their values). The rules are the same up to their order. C174_decision: the RBAC model, calls that return and keep links and rules together in both orders; C174_domains_partial: the same with domains without a colon. C174_set_partial: rules kept in a set, no two of which have the same values, and batches without such rules: the members afterwards."
  },
  {
   "property": "C175",
   "status": "partial",
   "theorems": [
    "Casbin.Retry.C175_rules_partial",
    "Casbin.Retry.C175_decision_partial",
    "Casbin.Retry.C175_update_fails",
    "Casbin.Retry.C175_remove_fails",
    "Casbin.Retry.C175_domains_partial",
    "Casbin.Retry.C175_set_partial"
   ],
   "note": "C175_rules_partial: every model, adapter and editing call on vector storage, whether or not the calls return, when no two stored rules have the same values and, for a batch of updates, no new rule has the values of an old one. Both conditions are needed: C175_update_fails (a batch of updates that keeps a rule loses it when retried), C175_remove_fails (each retry of a removal takes one more of the equal rules). C175_decision_partial and C175_domains_partial: the RBAC model and the model with domains, calls that return and keep links and rules together. Retrying is about the rules and the decisions: the second call usually answers false, and what the adapter stored is not compared. C175_set_partial: rules kept in a set, no two of which have the same values, and batches without such rules: the members afterwards. Decisions from a set are left out."
  },
  {
   "property": "C176",
   "status": "partial",
   "theorems": [
    "Casbin.Retry.C176_rules_partial",
    "Casbin.Retry.C176_decision_partial",
    "Casbin.Retry.C176_batch_fails",
    "Casbin.Retry.C176_rearranged_fails",
    "Casbin.Retry.C176_answer_partial",
    "Casbin.Retry.C176_domains_partial",
    "Casbin.Retry.C176_set_partial",
    "Casbin.Retry.C176_filter_partial",
    "Casbin.Retry.C176_batch_partial"
   ],
   "note": "C176_rules_partial: every model, adapter and policy type on vector storage, whether or not the inverse returns, when no two stored rules have the same values and the rules taken out are stored with their values in the order given. C176_answer_partial: the inverse then answers true, if it returns. The rest of the statement is false: C176_batch_fails (the inverse of a batch of additions, RemovePolicies, adds; C31), C176_rearranged_fails (a removal takes out a rule with the values in another order, which adding does not bring back). C176_decision_partial and C176_domains_partial: the RBAC model and the model with domains, calls that return and keep links and rules together. C176_set_partial: the same for the members of a set. C176_filter_partial, C176_batch_partial: a removal by a filter is undone by adding the rules it fits, a batch of additions by removing its rules one by one. Decisions from a set are left out."
  },
  {
   "property": "C177",
   "status": "partial",
   "theorems": [
    "Casbin.SyncedEvalProps.C177_alone_partial",
    "Casbin.SyncedEvalProps.C177_withMatcher_partial",
    "Casbin.SyncedEvalProps.C177_map",
    "Casbin.SyncedEvalProps.C177_inherited",
    "Casbin.SyncedEvalProps.C177_asks_fails"
   ],
   "note": "Violated: an evaluator that asks the enforcer for a rule takes the lock that the request holds (C177_asks_fails). C177_alone_partial, C177_withMatcher_partial: every evaluator that does not call the enforcer. C177_inherited: with the inherited methods, which take no lock, it may ask anything that returns and changes nothing. C177_map: SyncedEnforceWithMatcher for a map. Evaluators that change the definitions during a request are left out; the effector is that of the library."
  },
  {
   "property": "C178",
   "status": "partial",
   "theorems": [
    "Casbin.Gains.C178_role_bound",
    "Casbin.Gains.C178_role_partial",
    "Casbin.Gains.C178_permission",
    "Casbin.Gains.C178_domain_bound_partial",
    "Casbin.Gains.C178_depth_fails",
    "Casbin.Gains.C178_domain_role_partial",
    "Casbin.Gains.C178_domain_permission_partial"
   ],
   "note": "C178_role_bound, C178_permission: the RBAC model, every state in which links and rules agree, a call that returns and keeps them together, requests whose object and action are not both empty. C178_role_partial: the user gets what the role has through at most nine further roles; beyond that the claim is false (C178_depth_fails: the search stops after ten). C178_domain_bound_partial, C178_domain_role_partial, C178_domain_permission_partial: the same for the model with domains, for domains without a colon."
  },
  {
   "property": "C179",
   "status": "partial",
   "theorems": [
    "Casbin.ProcessProps.C179_step",
    "Casbin.ProcessProps.C179_held",
    "Casbin.ProcessProps.C179_others",
    "Casbin.ProcessProps.C179_malformed",
    "Casbin.ProcessProps.C179_partial",
    "Casbin.ProcessProps.C179_after",
    "Casbin.ProcessProps.C179_use",
    "Casbin.ProcessProps.C179_fails"
   ],
   "note": "False: Config::Parse leaves the class mutex locked when a file is malformed, so from then on every constructor, Init method or LoadModel that reads a model file, in the whole program, and Config::Set wait for ever (C179_after says exactly how each later call ends; C179_fails is a witness). C179_partial: without malformed files every history ends as if there were no mutex, which closes the gap left in C139; missing sections are not malformed. C179_use: enforcers that are already there go on answering. Calls are taken one after the other; steps of two threads inside one call are not interleaved."
  },
  {
   "property": "C18",
   "status": "proved",
   "theorems": [
    "Casbin.RoleProps.C18_addLink_edges",
    "Casbin.RoleProps.C18_addLink_idem",
    "Casbin.RoleProps.C18_deleteLink_edges",
    "Casbin.RoleProps.C18_deleteLink_unknown",
    "Casbin.RoleProps.C18_addLink_order"
   ],
   "note": ""
  },
  {
   "property": "C180",
   "status": "partial",
   "theorems": [
    "Casbin.ConfigThreadProps.C180_exclusive",
    "Casbin.ConfigThreadProps.C180_progress_partial",
    "Casbin.ConfigThreadProps.C180_ends",
    "Casbin.ConfigThreadProps.C180_partial",
    "Casbin.ConfigThreadProps.C180_dead",
    "Casbin.ConfigThreadProps.C180_waits",
    "Casbin.ConfigThreadProps.C180_blocks",
    "Casbin.ConfigThreadProps.C180_fails",
    "Casbin.ConfigThreadProps.C180_others_partial"
   ],
   "note": "False with malformed files: the mutex of Config stays locked (C180_dead), whoever reads a file then waits for ever (C180_waits), and if that is LoadModel of a synchronised enforcer, which holds the lock of that enforcer, every call of it waits for ever too (C180_blocks, C180_fails). Without malformed files all threads get done in every order (C180_partial with C180_progress_partial and C180_ends). C180_others_partial: an enforcer whose model nobody loads is never held up, whatever the files. Any number of threads and synchronised enforcers; what the calls compute and fairness of the locks are left out."
  },
  {
   "property": "C181",
   "status": "partial",
   "theorems": [
    "Casbin.StarvingProps.C181_shared_partial",
    "Casbin.StarvingProps.C181_one_partial",
    "Casbin.StarvingProps.C181_fails",
    "Casbin.StarvingProps.C181_crowd_fails"
   ],
   "note": "False: two threads that list the rules over and over, each asking again before the other is done, keep a third from ever adding a rule, in a fair execution (C181_fails). The standard lets a shared_mutex admit readers while a writer waits; an implementation that does not is outside the model. C181_shared_partial: threads whose calls all share the lock get them done. C181_one_partial: all threads do if at most one makes calls that share the lock. The body of a call is one step.  C181_crowd_fails: the same for all calls of these kinds; C181_fails names the calls, with the lock each takes read off lockOf."
  },
  {
   "property": "C182",
   "status": "partial",
   "theorems": [
    "Casbin.PyMakingProps.C182_partial",
    "Casbin.PyMakingProps.C182_only",
    "Casbin.PyMakingProps.C182_fails"
   ],
   "note": "False: None in the place of a model is taken, and the constructor uses the null pointer (C182_fails). C182_partial: arguments that stand for those of a constructor make it be called with them. C182_only: what else is taken: no arguments, a flag that is no bool, None for a model; everything else is a TypeError. Keyword arguments and subclasses in Python are left out; pybind11 as in C137."
  },
  {
   "property": "C183",
   "status": "proved",
   "theorems": [
    "Casbin.DefinedProps.C183_edits"
   ],
   "note": "The calls of Edit. A call about a type that is not there is undefined (C38); the model leaves the state as it was then, and the theorem says nothing about the program after such a call. Loads, SetModel and requests are not covered."
  },
  {
   "property": "C19",
   "status": "partial",
   "theorems": [
    "Casbin.RoleProps.C19_hasLink_partial",
    "Casbin.RoleProps.C19_getRoles_partial",
    "Casbin.RoleProps.C19_getUsers_partial",
    "Casbin.RoleProps.C19_fails"
   ],
   "note": "false as stated: names and domains are joined with '::' and can collide"
  },
  {
   "property": "C20",
   "status": "partial",
   "theorems": [
    "Casbin.RoleProps.C20_getUsers_getRoles",
    "Casbin.RoleProps.C20_domain_partial",
    "Casbin.RoleProps.C20_domain_fails"
   ],
   "note": "proved without a domain; with a domain it is false when names contain '::'"
  },
  {
   "property": "C21",
   "status": "proved",
   "theorems": [
    "Casbin.LinkProps.C21_any_state",
    "Casbin.LinkProps.C21_implicitRoles",
    "Casbin.LinkProps.C21_domain_partial"
   ],
   "note": "Termination and exactness for every role graph reachable through the role-manager API, cyclic or not; C21_domain_partial covers the call with a domain for histories without '::' in names."
  },
  {
   "property": "C22",
   "status": "partial",
   "theorems": [
    "Casbin.LinkProps.C22_agree_partial",
    "Casbin.LinkProps.C22_fails"
   ],
   "note": "False beyond ten links: an implicit role eleven links away is rejected by g."
  },
  {
   "property": "C23",
   "status": "partial",
   "theorems": [
    "Casbin.LinkProps.C23_mirror_partial",
    "Casbin.LinkProps.C23_membership_partial",
    "Casbin.LinkProps.C23_add_fails",
    "Casbin.LinkProps.C23_update_fails",
    "Casbin.LinkProps.mirrors_new",
    "Casbin.LinkProps.mirrors_rebuilt"
   ],
   "note": "False in general: AddGroupingPolicy of a rearranged rule links without storing; a failed UpdateGroupingPolicy erases the rule and keeps the link. Proved for every sequence of returning calls outside those cases."
  },
  {
   "property": "C24",
   "status": "partial",
   "theorems": [
    "Casbin.LinkProps.C24_forgets",
    "Casbin.LinkProps.C24_rebuild_partial",
    "Casbin.LinkProps.C24_order_partial",
    "Casbin.LinkProps.C24_order_fails"
   ],
   "note": "Earlier links are forgotten in every state (C24_forgets). Order independence holds without a pattern-matching function and is false with one."
  },
  {
   "property": "C25",
   "status": "partial",
   "theorems": [
    "Casbin.LinkProps.C25_independent_partial",
    "Casbin.LinkProps.C25_fails"
   ],
   "note": "False: all grouping types share one role manager. Proved when the names of the types are disjoint."
  },
  {
   "property": "C26",
   "status": "partial",
   "theorems": [
    "Casbin.PolicyProps.C26_hasPolicy_partial",
    "Casbin.PolicyProps.C26_hasPolicy_fails"
   ],
   "note": "false as stated: rules are compared as multisets of values; proved when no rearrangement of the rule is stored"
  },
  {
   "property": "C27",
   "status": "partial",
   "theorems": [
    "Casbin.PolicyProps.C27_addPolicy_partial",
    "Casbin.PolicyProps.C27_addPolicy_fails",
    "Casbin.PolicyProps.C27_rejected_fails"
   ],
   "note": "false as stated: rules are compared as multisets of values, and a rejected adapter call leaves the rule stored"
  },
  {
   "property": "C28",
   "status": "partial",
   "theorems": [
    "Casbin.PolicyProps.C28_removePolicy_partial",
    "Casbin.PolicyProps.C28_removePolicy_fails"
   ],
   "note": "false as stated: a rearrangement of the rule can be deleted instead"
  },
  {
   "property": "C29",
   "status": "partial",
   "theorems": [
    "Casbin.PolicyProps.C29_noDuplicates_partial",
    "Casbin.PolicyProps.C29_noDuplicates_fails"
   ],
   "note": "false for a batch that repeats a rule; proved for all other histories"
  },
  {
   "property": "C30",
   "status": "partial",
   "theorems": [
    "Casbin.PolicyProps.C30_addPolicies_partial",
    "Casbin.PolicyProps.C30_addPolicies_fails",
    "Casbin.PolicyProps.C30_addPolicies_adapter_fails",
    "Casbin.PolicyProps.C30_addPolicies_string_fails"
   ],
   "note": "false as stated: multiset comparison; null dereference with a non-batch adapter"
  },
  {
   "property": "C31",
   "status": "partial",
   "theorems": [
    "Casbin.PolicyProps.C31_removePolicies_partial",
    "Casbin.PolicyProps.C31_removePolicies_fails"
   ],
   "note": "false: RemovePolicies adds the rules"
  },
  {
   "property": "C32",
   "status": "partial",
   "theorems": [
    "Casbin.PolicyProps.C32_update_partial",
    "Casbin.PolicyProps.C32_update_fails",
    "Casbin.PolicyProps.C32_updateMany_partial",
    "Casbin.PolicyProps.C32_updateMany_fails"
   ],
   "note": "false: not atomic when the new rule is stored already or a later old rule is missing"
  },
  {
   "property": "C33",
   "status": "proved",
   "theorems": [
    "Casbin.PolicyProps.C33_filtered",
    "Casbin.PolicyProps.C33_empty_filter"
   ],
   "note": ""
  },
  {
   "property": "C34",
   "status": "partial",
   "theorems": [
    "Casbin.PolicyProps.C34_safe_partial",
    "Casbin.PolicyProps.C34_filter_fails",
    "Casbin.PolicyProps.C34_getAll_fails",
    "Casbin.StoreProps.C34_exact",
    "Casbin.StoreProps.C34_index",
    "Casbin.StoreProps.C34_negative"
   ],
   "note": "false for rules shorter than the filter or column  C34_exact says for which rules and filters the code reads outside; C34_index and C34_negative treat the index as the int it is."
  },
  {
   "property": "C35",
   "status": "partial",
   "theorems": [
    "Casbin.RbacProps.C35_deletePermissionsForUser_partial",
    "Casbin.RbacProps.C35_deleteRolesForUser_partial",
    "Casbin.RbacProps.C35_deleteUser_partial",
    "Casbin.RbacProps.C35_fails",
    "Casbin.RbacProps.C35_types_fails"
   ],
   "note": "Proved for non-empty names and the policy types p and g. The empty name deletes every rule; rules of p2 or g2 about the user stay."
  },
  {
   "property": "C36",
   "status": "proved",
   "theorems": [
    "Casbin.PolicyProps.C36_getAllNamed",
    "Casbin.PolicyProps.C36_getAllNamedRoles",
    "Casbin.PolicyProps.C36_getAll"
   ],
   "note": ""
  },
  {
   "property": "C37",
   "status": "proved",
   "theorems": [
    "Casbin.PolicyProps.C37_frame",
    "Casbin.PolicyProps.C37_history"
   ],
   "note": ""
  },
  {
   "property": "C38",
   "status": "partial",
   "theorems": [
    "Casbin.PolicyProps.C38_unknown_partial",
    "Casbin.PolicyProps.C38_unknown_fails"
   ],
   "note": "false: an undefined policy type is a null dereference"
  },
  {
   "property": "C39",
   "status": "partial",
   "theorems": [
    "Casbin.RbacProps.C39_implicitPermissions_partial",
    "Casbin.RbacProps.C39_domain_partial",
    "Casbin.RbacProps.C39_fails"
   ],
   "note": "Proved with multiplicities for non-empty user, role and domain names; a role with the empty name gives the rules of everybody."
  },
  {
   "property": "C40",
   "status": "partial",
   "theorems": [
    "Casbin.RbacProps.C40_addRole_partial",
    "Casbin.RbacProps.C40_deleteRole_partial",
    "Casbin.RbacProps.C40_fails"
   ],
   "note": "Proved for states whose links mirror the rules, one two-place role type, automatic link building, an adapter that does not reject, unless the pair is stored with its names exchanged; in that case the other pair is deleted."
  },
  {
   "property": "C41",
   "status": "partial",
   "theorems": [
    "Casbin.RbacProps.C41_implicitUsers_partial",
    "Casbin.RbacProps.C41_throws",
    "Casbin.RbacProps.C41_fails"
   ],
   "note": "The code violates the property: a request that throws for one of the names makes the whole call throw, so no allowed user is reported (C41_throws, C41_fails). Proved whenever every request of the loop answers, with or without the sections p and g. Left out: stored rules shorter than the column read, which is out of bounds."
  },
  {
   "property": "C42",
   "status": "partial",
   "theorems": [
    "Casbin.AdapterProps.C42_file",
    "Casbin.AdapterProps.C42_string_partial",
    "Casbin.AdapterProps.C42_string_fails"
   ],
   "note": "C42_file is the whole claim for FileAdapter and BatchFileAdapter. With StringAdapter it is violated for a policy without rules: the empty text is saved and loading it throws. C42_string_partial leaves exactly that case out. Sets keep no order, so there the rules are the same up to order."
  },
  {
   "property": "C43",
   "status": "partial",
   "theorems": [
    "Casbin.AdapterProps.C43_fails",
    "Casbin.AdapterProps.C43_partial"
   ],
   "note": "Violated: LoadPolicy clears the model before it asks the adapter, so a failure leaves no rules (and the role links of the old policy). C43_partial: definitions, links, flags and watcher stay, and an empty policy stays, when the adapter fails before storing anything."
  },
  {
   "property": "C44",
   "status": "partial",
   "theorems": [
    "Casbin.NotifyProps.C44_autoSave_partial",
    "Casbin.NotifyProps.C44_history_partial",
    "Casbin.NotifyProps.C44_update_fails"
   ],
   "note": "false for updates, which make no adapter call"
  },
  {
   "property": "C45",
   "status": "partial",
   "theorems": [
    "Casbin.NotifyProps.C45_watcher_partial",
    "Casbin.NotifyProps.C45_watcherEx_fails"
   ],
   "note": "count of notifications proved; an extended watcher never receives the incremental calls"
  },
  {
   "property": "C46",
   "status": "partial",
   "theorems": [
    "Casbin.NotifyProps.C46_remove_partial",
    "Casbin.NotifyProps.C46_string_fails"
   ],
   "note": "false for StringAdapter, which empties its store"
  },
  {
   "property": "C47",
   "status": "partial",
   "theorems": [
    "Casbin.AdapterProps.C47_meaning",
    "Casbin.AdapterProps.C47_file",
    "Casbin.AdapterProps.C47_string_partial",
    "Casbin.AdapterProps.C47_string_fails"
   ],
   "note": "C47_file is the whole claim for policy files, for lines shorter than 2^31-1. Violated by StringAdapter, which does not trim the lines: a line of blanks or a comment after a blank dereferences a null pointer. C47_string_partial leaves those lines and the empty text out."
  },
  {
   "property": "C48",
   "status": "partial",
   "theorems": [
    "Casbin.CachedProps.C48_transparent_partial",
    "Casbin.CachedProps.C48_fails"
   ],
   "note": "Holds for requests whose texts do not contain `$$` or end in `$` (and that are plain in the sense of C11). Violated otherwise: the key does not escape its separator, so one request gets another one's answer."
  },
  {
   "property": "C49",
   "status": "proved",
   "theorems": [
    "Casbin.CachedProps.C49_fresh",
    "Casbin.CachedProps.C49_fresh_map"
   ],
   "note": "Every history, every request."
  },
  {
   "property": "C50",
   "status": "partial",
   "theorems": [
    "Casbin.CachedProps.C50_fails",
    "Casbin.CachedProps.C50_new_requests_partial",
    "Casbin.CachedProps.C50_disabled_partial"
   ],
   "note": "Violated: no editing method empties the map, so a revoked permission is still granted. What holds: requests not asked since the map was last emptied, and all requests while the cache is off, are answered from the current policy."
  },
  {
   "property": "C51",
   "status": "partial",
   "theorems": [
    "Casbin.SyncedProps.C51_fails",
    "Casbin.SyncedProps.C51_partial"
   ],
   "note": "The code violates the claim: 33 public calls (every one that forwards to its Named variant, the RBAC calls built on them, and the two removals of grouping rules that rebuild the links) take policyMutex twice in one thread. C51_fails proves it for every state and argument; C51_partial proves that every other call takes it at most once, and does exactly what the plain Enforcer does."
  },
  {
   "property": "C52",
   "status": "partial",
   "theorems": [
    "Casbin.ConcurrentProps.C52_partial",
    "Casbin.ConcurrentProps.C52_explained_partial",
    "Casbin.ConcurrentProps.C52_fails",
    "Casbin.ConcurrentProps.C52_torn_fails",
    "Casbin.ConcurrentProps.C52_race_fails"
   ],
   "note": "Proved for every number of threads, program, schedule and cutting of the bodies into steps, for the methods that take policyMutex on an enforcer whose model has sections p and g. The code violates the rest: EnforceWithMatcher/EnforceEx are inherited without a lock and share the evaluator (C52_fails: a request that must be refused is permitted), GetImplicitPermissionsForUser takes the lock anew for each part (C52_torn_fails), GetAllRoles writes under the shared lock when the model has no section g (C52_race_fails)."
  },
  {
   "property": "C53",
   "status": "partial",
   "theorems": [
    "Casbin.TickerProps.C53_partial",
    "Casbin.TickerProps.C53_fails"
   ],
   "note": "Violated: stop may take the mutex between the timer's test of _running and its lock, and then waits for a timer that waits for the mutex (C53_fails). Otherwise proved for every interleaving: no execution is infinite once stop is called, and the only other final states are those of that deadlock. Tasks are assumed to take finitely many steps."
  },
  {
   "property": "C54",
   "status": "proved",
   "theorems": [
    "Casbin.TickerProps.C54_no_reload"
   ],
   "note": "Interleaving model of Ticker; once stop has returned no task begins, none is under way, and none is launched."
  },
  {
   "property": "C55",
   "status": "partial",
   "theorems": [
    "Casbin.ConfigProps.C55_roundTrip_partial",
    "Casbin.ConfigProps.C55_others_partial",
    "Casbin.ConfigProps.C55_fails",
    "Casbin.ConfigProps.C55_history",
    "Casbin.ConfigProps.C55_exact"
   ],
   "note": "Exact: C55_history for any text, any calls of Set and any key (the last call that wrote the option the key names decides); C55_exact for one call. Violated only by keys beginning with '::' (C55_fails), for which Set and Get use different sections, so that Get gives nothing."
  },
  {
   "property": "C56",
   "status": "partial",
   "theorems": [
    "Casbin.ConfigProps.getLines_spec",
    "Casbin.ConfigProps.C56_parse_partial",
    "Casbin.ConfigProps.C56_comments",
    "Casbin.ConfigProps.C56_fails"
   ],
   "note": "Last assignment wins, comments and empty lines do not matter, other lines are rejected. A line of blanks is rejected too, which contradicts the claim."
  },
  {
   "property": "C57",
   "status": "partial",
   "theorems": [
    "Casbin.ConfigProps.C57_unlocked_partial",
    "Casbin.ConfigProps.C57_same_partial",
    "Casbin.ConfigProps.C57_fails",
    "Casbin.ConfigProps.C57_set",
    "Casbin.ConfigProps.C57_data_partial"
   ],
   "note": "Violated: after any malformed file the class mutex stays locked and every later file load blocks. Text loads and successful loads are fine."
  },
  {
   "property": "C58",
   "status": "partial",
   "theorems": [
    "Casbin.ConfigProps.C58_required",
    "Casbin.ConfigProps.C58_sections_partial",
    "Casbin.ConfigProps.loadSection_terminates",
    "Casbin.ConfigProps.C58_fails"
   ],
   "note": "The only-if direction holds without conditions. The exception is the wrong one when there are no matchers but a request and an effect definition."
  },
  {
   "property": "C59",
   "status": "partial",
   "theorems": [
    "Casbin.ConfigProps.C59_order_partial",
    "Casbin.ConfigProps.C59_start_partial",
    "Casbin.ConfigProps.C59_fails",
    "Casbin.ConfigProps.C59_storage_fails"
   ],
   "note": "Any order works once m, r and (if used) g are in; other orders lose the policy definition or choose another storage."
  },
  {
   "property": "C60",
   "status": "proved",
   "theorems": [
    "Casbin.BuiltinProps.C60_keyMatch"
   ],
   "note": ""
  },
  {
   "property": "C61",
   "status": "proved",
   "theorems": [
    "Casbin.BuiltinProps.C61_keyGet"
   ],
   "note": ""
  },
  {
   "property": "C62",
   "status": "proved",
   "theorems": [
    "Casbin.BuiltinProps.C62_ipMatch"
   ],
   "note": "every text of an address (leading zeros included), every mask text"
  },
  {
   "property": "C63",
   "status": "partial",
   "theorems": [
    "Casbin.BuiltinProps.C63_partial",
    "Casbin.BuiltinProps.C63_fails"
   ],
   "note": "violated: every plain address as a pattern makes IPMatch throw; the /32 block is proved"
  },
  {
   "property": "C64",
   "status": "partial",
   "theorems": [
    "Casbin.KeyPatternProps.C64_keyMatch2_partial",
    "Casbin.KeyPatternProps.C64_fails"
   ],
   "note": "Proved for literal characters without a meaning in regular expressions; a dot in a template matches any character (C64_fails). std::regex is modelled for the expressions these functions make; others are a parameter."
  },
  {
   "property": "C65",
   "status": "proved",
   "theorems": [
    "Casbin.C65_join_split",
    "Casbin.C65_pieces_free"
   ],
   "note": "texts shorter than the library's LARGE bound for the second half"
  },
  {
   "property": "C66",
   "status": "proved",
   "theorems": [
    "Casbin.C66_trim_decomp",
    "Casbin.C66_trim_ends",
    "Casbin.C66_trim_idem",
    "Casbin.C66_trim_unique"
   ],
   "note": ""
  },
  {
   "property": "C67",
   "status": "proved",
   "theorems": [
    "Casbin.EvalProps.C67_substitution",
    "Casbin.EvalProps.C67_untouched",
    "Casbin.EvalProps.C67_unbound",
    "Casbin.EvalProps.C67_rule",
    "Casbin.EvalProps.C67_rule_unknown"
   ],
   "note": "The regex of eval.cpp is written out; the specification cuts the text at its leftmost calls, recognised in any mix of cases as the regex does. In a request an unbound argument is an exception."
  },
  {
   "property": "C68",
   "status": "partial",
   "theorems": [
    "Casbin.EndToEnd.C68_acl_partial",
    "Casbin.EndToEnd.C68_history_partial",
    "Casbin.EndToEnd.C68_fails",
    "Casbin.EndToEnd.C68_nul_fails",
    "Casbin.TextProps.C68_any_length",
    "Casbin.TextProps.C68_any_set",
    "Casbin.TextProps.C68_any_history"
   ],
   "note": "Proved after every history of edits, requests, loads, saves, rebuilt links and settings of adapter, watcher and switches, for every sound expression library; the request of empty strings is granted when no rule is looked at (C68_fails); with set storage a stored request with a NUL character is denied (C68_nul_fails). C68_any_length, C68_any_set and C68_any_history: rules of any length."
  },
  {
   "property": "C69",
   "status": "partial",
   "theorems": [
    "Casbin.EndToEnd.C69_rbac_partial",
    "Casbin.EndToEnd.C69_history_partial",
    "Casbin.EndToEnd.C69_fails",
    "Casbin.TextProps.C69_any_length",
    "Casbin.TextProps.C69_any_history"
   ],
   "note": "Proved after every faithful history of edits, requests, loads, saves, rebuilt links and settings on an enforcer whose links were built; empty requests on an empty policy are granted (C69_fails). Rules of any length: C69_any_length, C69_any_history."
  },
  {
   "property": "C70",
   "status": "partial",
   "theorems": [
    "Casbin.EndToEnd.C70_domains_partial",
    "Casbin.EndToEnd.C70_isolation_partial",
    "Casbin.EndToEnd.C70_fails",
    "Casbin.TextProps.C70_any_length",
    "Casbin.TextProps.C70_any_history"
   ],
   "note": "Proved for domains without a colon, after every faithful history (C70_any_history); a role of domain a leaks into domain a::b (C70_fails). Rules of any length: C70_any_length."
  },
  {
   "property": "C71",
   "status": "partial",
   "theorems": [
    "Casbin.EvalProps.C71_narrow_partial",
    "Casbin.EvalProps.C71_fails"
   ],
   "note": "Violated: the rule text is pasted without parentheses, so a rule text with || escapes the condition. Holds for rule texts the expression library reads as one operand."
  },
  {
   "property": "C72",
   "status": "partial",
   "theorems": [
    "Casbin.EndToEnd.C72_roles_partial",
    "Casbin.EndToEnd.C72_fails"
   ],
   "note": "Proved when the role links were built once; without adapter an early request freezes g without role manager (C72_fails)."
  },
  {
   "property": "C73",
   "status": "partial",
   "theorems": [
    "Casbin.BuiltinProps.C73_ipMatch_partial",
    "Casbin.BuiltinProps.C73_fails"
   ],
   "note": "violated for blocks within ::ffff:0:0/96; texts ending in an IPv4 address are C122"
  },
  {
   "property": "C74",
   "status": "partial",
   "theorems": [
    "Casbin.BuiltinProps.C74_families_partial",
    "Casbin.BuiltinProps.C74_fails",
    "Casbin.DottedProps.C74_exact"
   ],
   "note": "violated for IPv4 addresses in blocks within ::ffff:0:0/96; C74_exact is what happens there"
  },
  {
   "property": "C75",
   "status": "proved",
   "theorems": [
    "Casbin.BuiltinProps.C75_ipMatch_total",
    "Casbin.BuiltinProps.C75_noAddress",
    "Casbin.BuiltinProps.C75_badMask"
   ],
   "note": ""
  },
  {
   "property": "C76",
   "status": "proved",
   "theorems": [
    "Casbin.KeyPatternProps.C76_keyMatch3"
   ],
   "note": "Every template with at most one parameter per segment. std::regex is modelled for the expressions these functions make; others are a parameter."
  },
  {
   "property": "C77",
   "status": "proved",
   "theorems": [
    "Casbin.KeyPatternProps.C77_keyGet2"
   ],
   "note": "Both a matching and a non-matching path. std::regex is modelled for the expressions these functions make; others are a parameter."
  },
  {
   "property": "C78",
   "status": "proved",
   "theorems": [
    "Casbin.KeyPatternProps.C78_keyGet3"
   ],
   "note": "Both a matching and a non-matching path, with literal text around the parameter. std::regex is modelled for the expressions these functions make; others are a parameter."
  },
  {
   "property": "C79",
   "status": "partial",
   "theorems": [
    "Casbin.KeyPatternProps.C79_keyMatch4_partial",
    "Casbin.KeyPatternProps.C79_fails"
   ],
   "note": "Proved for at most one parameter per segment; with two in a segment KeyMatch4 throws a char pointer (C79_fails). std::regex is modelled for the expressions these functions make; others are a parameter."
  },
  {
   "property": "C80",
   "status": "partial",
   "theorems": [
    "Casbin.KeyPatternProps.C80_literal_partial",
    "Casbin.KeyPatternProps.C80_fails"
   ],
   "note": "Proved for characters without a meaning in regular expressions; '.' and '+' are not escaped (C80_fails). std::regex is modelled for the expressions these functions make; others are a parameter."
  },
  {
   "property": "C81",
   "status": "proved",
   "theorems": [
    "Casbin.EvalProps.C81_escape",
    "Casbin.EvalProps.C81_column",
    "Casbin.EvalProps.C81_loop"
   ],
   "note": "All texts.  C81_loop: the same for the loop as written, which replaces in the text it is searching."
  },
  {
   "property": "C82",
   "status": "partial",
   "theorems": [
    "Casbin.CachedProps.C82_fails",
    "Casbin.CachedProps.C82_same_names_partial"
   ],
   "note": "Violated: the key of a map request holds the values only. What holds: with the same names in the same container order, a stored answer is only given to the request it was given to before."
  },
  {
   "property": "C83",
   "status": "proved",
   "theorems": [
    "Casbin.TextProps.C83_definition",
    "Casbin.TextProps.C83_refused"
   ],
   "note": "For texts shorter than the bound of Split."
  },
  {
   "property": "C84",
   "status": "partial",
   "theorems": [
    "Casbin.TextProps.C84_acl_partial",
    "Casbin.TextProps.C84_rbac_partial",
    "Casbin.TextProps.C84_domains_partial",
    "Casbin.TextProps.C84_rbac_any_length",
    "Casbin.TextProps.C84_domains_any_length",
    "Casbin.TextProps.C84_undefined_type",
    "Casbin.TextProps.C84_short_grouping",
    "Casbin.TextProps.C84_fails",
    "Casbin.TextProps.C84_empty_fails"
   ],
   "note": "The code violates the property: a line of a type the model does not define is a null dereference in the constructor (C84_undefined_type, C84_fails), and without rules the request of empty strings is granted (C84_empty_fails). A grouping line with too few values makes the constructor throw (C84_short_grouping); a p line of another length makes requests throw when it is reached (C84_rbac_any_length, C84_domains_any_length). Left out: requests with a NUL character for the set storage (C68_nul_fails), domains with a colon (C70_fails); role chains are followed for ten links."
  },
  {
   "property": "C85",
   "status": "partial",
   "theorems": [
    "Casbin.SyncedProps.C85_fails"
   ],
   "note": "The code violates the claim: SyncedEnforcer::SetWatcher stores the watcher in a member of its own, the notifying code reads Enforcer::m_watcher. Proved: after any sequence of later calls that watcher has been told nothing."
  },
  {
   "property": "C86",
   "status": "partial",
   "theorems": [
    "Casbin.TickerProps.C86_partial",
    "Casbin.TickerProps.C86_fails"
   ],
   "note": "Violated when the first call is a stop: ticker is null (C86_fails). Proved for every sequence that begins with a start."
  },
  {
   "property": "C87",
   "status": "partial",
   "theorems": [
    "Casbin.RbacProps.C87_deleteRole_partial",
    "Casbin.RbacProps.C87_fails",
    "Casbin.RbacProps.C87_empty_fails"
   ],
   "note": "Violated: rules granting roles to the deleted role stay, and the empty name removes everything. Proved for non-empty names: exactly the grants of the role and its rules of type p go, and nobody else has the role any more."
  },
  {
   "property": "C88",
   "status": "partial",
   "theorems": [
    "Casbin.RbacProps.C88_deletePermission_partial",
    "Casbin.RbacProps.C88_fails"
   ],
   "note": "Violated for empty values, which stand for any value. Proved for permissions of non-empty values when all rules have enough values."
  },
  {
   "property": "C89",
   "status": "partial",
   "theorems": [
    "Casbin.RbacProps.C89_addPermission_partial",
    "Casbin.RbacProps.C89_deletePermission_partial",
    "Casbin.RbacProps.C89_fails"
   ],
   "note": "Violated when a rule of the same values in another order is stored. Proved without such rules."
  },
  {
   "property": "C90",
   "status": "partial",
   "theorems": [
    "Casbin.RbacProps.C90_addRoles_partial",
    "Casbin.RbacProps.C90_fails"
   ],
   "note": "Violated when a pair is stored with the names exchanged: the link is made without a rule. Proved for policies without such pairs and models with the one role definition g."
  },
  {
   "property": "C91",
   "status": "partial",
   "theorems": [
    "Casbin.RbacProps.C91_addRoleInDomain_partial",
    "Casbin.RbacProps.C91_deleteRoleInDomain_partial",
    "Casbin.RbacProps.C91_fails",
    "Casbin.RbacProps.C91_colon_fails"
   ],
   "note": "Violated when another arrangement of the names is stored and for domains with colons. Proved without them."
  },
  {
   "property": "C92",
   "status": "partial",
   "theorems": [
    "Casbin.FilteredProps.C92_loadFiltered_partial",
    "Casbin.FilteredProps.C92_fails"
   ],
   "note": "Violated by every file with a line that passes: an uninitialised variable is read. Proved for files without one: nothing is loaded."
  },
  {
   "property": "C93",
   "status": "partial",
   "theorems": [
    "Casbin.FilteredProps.C93_nullFilter_partial",
    "Casbin.FilteredProps.C93_fails"
   ],
   "note": "Violated for policies kept in vectors (every rule is stored twice) and for the flag. Proved for the rules of models whose policies are kept in sets."
  },
  {
   "property": "C94",
   "status": "partial",
   "theorems": [
    "Casbin.FilteredProps.C94_filteredNotSaved_partial",
    "Casbin.FilteredProps.C94_fails",
    "Casbin.FilteredProps.C94_new"
   ],
   "note": "Violated: saving an unfiltered policy calls itself for ever. Proved: a filtered policy is never written. C94_new: an adapter that has not read the whole file counts as filtered."
  },
  {
   "property": "C95",
   "status": "partial",
   "theorems": [
    "Casbin.ConfigProps.C95_getters_partial",
    "Casbin.ConfigProps.C95_fails",
    "Casbin.ConfigProps.C95_overflow_fails"
   ],
   "note": "Violated for a list of one empty text and for integers that do not fit an int. GetFloat is C134."
  },
  {
   "property": "C96",
   "status": "partial",
   "theorems": [
    "Casbin.NotifyProps.C96_unsupported_partial",
    "Casbin.NotifyProps.C96_fails"
   ],
   "note": "Violated by StringAdapter::RemovePolicy. Proved for all the other calls of the built-in adapters."
  },
  {
   "property": "C97",
   "status": "proved",
   "theorems": [
    "Casbin.MatcherProps.C97_factory"
   ],
   "note": ""
  },
  {
   "property": "C98",
   "status": "proved",
   "theorems": [
    "Casbin.MatcherProps.C98_reading"
   ],
   "note": "For a library that reads texts as the model of exprtk's lexer and parser does (Faithful)."
  },
  {
   "property": "C99",
   "status": "partial",
   "theorems": [
    "Casbin.MatcherProps.C99_whiteSpace_partial",
    "Casbin.MatcherProps.C99_fails"
   ],
   "note": "Violated: without blanks around && the matcher is refused."
  }
 ]
}
