# Formal model of casbin-cpp: design

The properties are in `properties.jsonl`, the claims in `MANIFEST.json`, the Lean 4
development in `lean/`, and the record of seeded bugs in `seeded/LOG.jsonl`.

## 1. Trusted base

* The Lean 4.33.0 kernel. Every theorem named in `MANIFEST.json` depends on at most the
  axioms `propext`, `Classical.choice` and `Quot.sound`. No axioms of our own, no `sorry`,
  no `native_decide`, no `bv_decide`.
* The reading of the C++ sources: every definition of the model cites the file and lines
  it models. The code was read as text; nothing was compiled or run.
* The parts listed in section 3 as not modelled, and the simplifications of section 2.

## 2. How C++ behaviour is represented

* `Outcome α` = `ok a | throw e | ub u`. Undefined behaviour is a result of its own, with its
  cause: `nullDeref`, `outOfBounds`, `iterator`, `uninit`, `relock` (a thread locks a mutex it
  holds: undefined, in practice it blocks for ever), `unbounded`. So `f x = ok y` also says that
  the code does not throw, has no undefined behaviour and does not block.
* A method that mutates an object is `M σ α = σ → Outcome α × σ`: the state survives a C++
  exception. The state after `ub` means nothing.
* A `std::string` is a list of characters (`Str = List Char`). Only the IP code looks at character
  codes; `char` is taken to be signed there (`Builtins.lean`, `maskByte`).
* Integers are unbounded except where a bound of the code matters (`Split` with its limit
  2147483647, the `big` of the IP code, octets).
* `std::vector` is a list. `std::unordered_map` is an association list (`UMap`), and every iteration
  over an unordered container goes through a reordering chosen by a parameter `IterOrder`:
  theorems hold for every choice. `PoliciesValues` is a list with the flag vector / hash set.
* `operator[]` of a map with an unknown key inserts a null `shared_ptr`; dereferencing it is `ub`.
* Role managers are shared: the enforcer holds a list of role manager objects (a heap) and the
  assertions and evaluator functions hold indices into it.
* Expressions: `ExprLib` is a record of an arbitrary parser from texts to
  trees, arbitrary operators on values, and arbitrary built-in functions. casbin's wrapper
  (`ExprtkEvaluator`: symbol table, remembered text, sticky error, first registration of a function
  wins) is modelled statement by statement. Trees have no assignments, loops or local variables;
  operators are strict, as exprtk's `and`/`or` are. Numbers are integers or NaN.
  Theorems hold for every `ExprLib`; the end-to-end theorems assume `SoundLib` (the three example
  matchers are parsed to the expected trees; `==` and `and` mean what they should), `C71` assumes
  `UsualLib` (usual precedence). `MiniLib.lean` has a concrete library that satisfies them, so the
  assumptions are not contradictory.
* How **exprtk** reads a text is modelled in `Exprtk.lean`: casbin's replacements, the lexer, the
  token passes, the precedence parser, the types, and which texts are refused. A text that uses
  another feature of exprtk is answered `outside`: nothing is said about it. The theorems on matchers
  assume `Faithful lib` (`StdLib.lean`): the library reads texts as `Exprtk.read` says, and `==`,
  `!=`, `and`, `or` and sequences mean what they do in exprtk. `Faithful` implies `SoundLib`. Names
  are compared without regard to case, as in exprtk: the tables of the evaluator are keyed by the
  lower case, and it also keeps the names as they were entered, which the lookup in set storage reads.
  `stdLib` is a library that is `Faithful`.
* **std::regex**: the two fixed expressions of `eval.cpp` and `escape_assertion.cpp` are written out.
  `Regex.lean` models reading and matching of the expressions of policies after the C++ standard;
  theorems on `RegexMatch` that do not name `stdRx` hold for any behaviour of the library.
  The expressions that `KeyMatch2`… make of path templates are modelled by a backtracking matcher for
  the sub-language they use; anything outside is an arbitrary parameter `RxLib`. The `regex_replace`
  of `AddDef` is modelled for patterns of plain characters and `.`; otherwise it is a parameter `rx`.
* Files: reading and writing a file is one step that gives or takes the whole text; a missing file is
  an outcome of its own. `std::getline` and the `eof` loops are modelled exactly (`getLines`).
* Threads (`Threads.lean`, `Bodies.lean`): any number of threads, each running a program of calls;
  a call takes the lock in its mode or waits, works in any number of atomic steps, releases. Schedules
  are arbitrary. A data race, undefined in C++, shows as interleaved steps, so negative results do not
  depend on it and positive ones are for calls that cannot race.
* `Ticker.lean`: small steps of the timer loop, of `stop` and of the tasks, interleaved arbitrarily.
  A task takes finitely many steps; a sleep ends.
* A grouping function whose role definition has no `_` takes no arguments here; exprtk lets it take any.
  `BuildRoleLinks` throws for such a definition.

## 3. Which code is modelled

| source | model | left out |
|--------|-------|----------|
| `util/split, trim, join, join_slice, array_*, set_subtract, ends_with, find_all_occurences, remove_comments` | `Util.lean`, `Find.lean` | |
| `util/eval.cpp`, `util/escape_assertion.cpp` | `EvalSub.lean`, `EscapeLoop.lean` | `EscapeAssertion` changes the text while a `sregex_iterator` points into it; `EvalSub.lean` is one pass over an unchanged text, `EscapeLoop.lean` the loop on the changing text, and C81_loop says that they agree; that `std::string::replace` may invalidate the iterator is left out |
| `util/built_in_functions.cpp` | `Builtins.lean`, `KeyPatterns.lean`, `Regex.lean` | `std::regex` beyond the expressions of `Regex.lean`, which are up to a parameter |
| `ip_parser/parser` | `Builtins.lean`, `Printing.lean` | `Print` |
| `util/ticker.cpp` | `Ticker.lean` | time |
| `config/config.cpp` | `ModelDef.lean`, `Getters.lean`, `Floats.lean` | `atoi` and `atof` are taken from the C standard, `atof` without `inf`, `nan` and hexadecimal numbers; IEEE 754 formats, rounding to nearest even |
| `model/model.cpp`, `assertion.cpp`, `policy_collection.cpp` | `ModelDef.lean`, `Model.lean`, `Index.lean` | `PrintModel`, `PrintPolicy`, whose bodies are empty |
| `model/evaluator.cpp`, `function.cpp`, `exprtk_config.h` | `Evaluator.lean`, `Growth.lean` (`Functions`), `Effort.lean` (a record of compilations and evaluations), `Factory.lean`, `FactoryThreads.lean`, `Cleaning.lean` (`Clean`), `Direct.lean` (use without an enforcer), `Getting.lean` (`EnableGet`, `GetString`), `StdLib.lean` | duktape, `PrintSymbol`; exprtk's constants `pi`, `epsilon`, `inf` |
| `exprtk/exprtk.hpp` | `Exprtk.lean` | everything but the reading of matchers |
| `rbac/default_role_manager.cpp` | `RoleManager.lean`, `RoleRaise.lean`, `RoleCost.lean`, `Printing.lean` | in `RoleManager.lean`, and so in the enforcer, the matching function is one to `Bool`; one that throws (`KeyMatch4` does for some patterns, and a `std::regex` may) is in `RoleRaise.lean`, for the role manager alone |
| `effect/default_effector.cpp` | `Effect.lean` | |
| `selected_policies.cpp`, `enforcer.cpp` `m_enforce` | `Enforce.lean`; `Custom.lean` with any evaluator and effector | calls of `LogPrint`, which are in `Logging.lean` |
| `log/*.h`, `logger.cpp`, the calls of `LogPrint` in `m_enforce`, `EnableLog` | `Logging.lean` | `LogPrintf` (called nowhere) |
| `enforcer.cpp`, `internal_api.cpp`, `management_api.cpp`, `rbac_api*.cpp` | `Enforcer.lean` | `LoadFilteredPolicy` (a template defined in a `.cpp` file and never instantiated, calling a non-virtual method without a body: no program using it links), custom evaluators (in `Custom.lean`), JSON values beyond their name |
| `persist/adapter.cpp`, `string_adapter.cpp`, `file_adapter.cpp`, `batch_file_adapter.cpp` | `Adapter.lean` | |
| `persist/file_adapter/filtered_file_adapter.cpp` | `Filtered.lean` | |
| `persist/watcher.h`, `persist/default_watcher*.cpp` | the log in `Enforcer.Watcher`; `Sharing.lean` (callbacks, several instances on one file) | how a watcher of the user reaches other processes |
| `enforcer.h` members, copying, `Set*`, evaluators of the caller | `Calls.lean`, `World.lean`, `Effectors.lean` | an effector shared by two enforcers; objects are never freed |
| `enforcer_cached.cpp` | `Cached.lean`, `CachedThreads.lean`, `CachedWorld.lean` (copy and move constructor) | with threads: steps inside a request to the base class and inside `InvalidateCache` |
| `enforcer_synced.cpp` | `Synced.lean`, `Threads.lean`, `Bodies.lean`, `Ticker.lean`, `AutoThreads.lean`, `Destroy.lean`, `SyncedEval.lean` (overloads with an evaluator), `Starving.lean` (threads that call without end) | `LoadFilteredPolicy`; an evaluator that changes the definitions during a request |
| `enforcer.cpp` constructors, `Init…`, `LoadModel`, `m_model_path` | `Making.lean`; `Process.lean` (several enforcers and the mutex of `Config`), `ConfigThreads.lean` (the mutex and the locks of synchronised enforcers, with threads) | |
| `pycasbin/src/*.cpp` | `Python.lean`, `PythonCalls.lean`, `PythonMaking.lean` (constructors of the enforcers) | the other constructors, `required_sections`, keyword arguments, negative numbers, subclasses in Python; pybind11 2.11.1 is taken from its documentation |

`*Lemmas.lean`, `DecisionSpec/Run/Main/Edit.lean`, `EffectDecide.lean` are specifications and helper
lemmas; the theorems of the manifest are in `Props/`. `Fixtures.lean` and `MiniLib.lean` are concrete
objects for examples and witnesses.

## 4. Properties and proofs

| id | theorems in | proof |
|----|-------------|-------|
| C01–C05 | `Props/Decision` | the rule loop equals a declarative decision over the list of (satisfied, effect); the evaluator computes `verdict`, a stateless meaning of the matcher |
| C06–C13, C15, C16 | `Props/Requests`, `Props/Edges` (C08, C13 exactly) | corollaries of the decision theorem; invariant "consistent evaluator" kept by every request |
| C14 | `Props/Hash` | comparison of two enforcers that differ in the container only |
| C17–C20 | `Props/Roles` | refinement of the role manager to a set of edges; induction on depth; injectivity of the prefix |
| C21–C25 | `Props/Links` | worklist invariant and termination; `Mirrors` invariant over histories of edits |
| C26–C34, C36–C38 | `Props/Policy` | list lemmas, exact safety conditions, frame lemmas, histories by induction |
| C35, C39–C41 | `Props/RbacApi` | composition of the above |
| C87–C91 | `Props/Permissions` | composition of the above; injectivity of the domain prefix |
| C42, C43, C47 | `Props/Adapters` | meaning of a policy text as a relation; print/parse round trip |
| C44–C46, C96 | `Props/Notify` | logs of adapter and watcher calls; induction over histories |
| C48–C50, C82 | `Props/Cached` | invariant: every stored answer is the one of the current policy; injectivity of the key |
| C51, C85 | `Props/Synced` | every method of the class, by its lock and its body |
| C52 | `Props/Linear`, `Props/Concurrent` | forward simulation to the sequential object; three explicit schedules |
| C53, C54, C86 | `Props/Ticker` | invariant, lexicographic measure, explicit schedule |
| C55–C59 | `Props/Config`, `Props/ConfigExact` | meaning of a configuration text; round trips; permutation argument |
| C95 | `Props/Getters` | numerals, splitting |
| C60–C63, C73–C75 | `Props/Builtins` | numeral parsers, bitwise masks |
| C64, C76–C80 | `Props/KeyPatterns` | segment induction over the matcher |
| C65, C66 | `Props/Strings` | induction |
| C67, C71, C81 | `Props/EvalSub`, `Props/EscapeLoop` | text cut at its leftmost calls |
| C68–C70, C72 | `Props/EndToEnd` | histories of edits, requests, loads, saves, rebuilt links and settings (`Deed`, DeedLemmas) on the example models |
| C92–C94 | `Props/Filtered` | induction over lines and calls |
| C97–C102 | `Props/Exprtk` | specification of written expressions (`ExprtkSpec`, `Conditions`); lexer, passes and parser invert it |
| C103–C106 | `Props/Matchers` | composition with the decision theorem |
| C107–C109 | `Props/Examples` | what the written matcher means (`ExampleLemmas`), with the decision, mirror and function theorems |
| C110 | `Props/ResourceRoles` | the same; paths over the links of both types |
| C111–C113 | `Props/Maps` | the values in the symbol table before and after a request; an unknown field does not compile |
| C114 | `Props/Extras` | a model with the further entries as columns and the rules the request looks at |
| C115 | `Props/NewModel` | a new enforcer, compared by the answers to a list of calls (`Calls`) |
| C116 | `Props/Find` | positions of a text, the leftmost ones without overlap |
| C117 | `Props/Callers` | invariant: the caller's evaluator is consistent with the model and holds the values given last |
| C118 | `Props/Managers` | renaming of role managers (`EmbedLemmas`); building the links forgets the old pointers; a new evaluator is as good as none (`answers_ready`) |
| C119, C120 | `Props/Worlds` | each enforcer keeps its part of the program's objects (`WorldInv`); methods commute with renaming of role managers |
| C121 | `Props/CachedThreads` | invariant on all interleavings: stored answers, and answers about to be stored, are those of the new policy |
| C122 | `Props/IPv6Dotted` | `IsDotted`, `IsText`; pairs of bytes of which the second may hold 16 bits |
| C123 | `Props/IPTexts` | inversion of `xtoi` and of the loop of `parseIPv6` |
| C124 | `Props/Logging` | the request once more with its calls of `LogPrint`; simulation through the monad |
| C125 | `Props/InOrder` | how far the rule loop gets: induction over the rules before the one that settles or fails |
| C126, C127 | `Props/Grouping` | the edit theorems of the store and the mirrored states of `MirrorLemmas`, for grouping types and for the short calls |
| C128 | `Props/Listings` | the role graph of a mirrored state read from both ends |
| C129 | `Props/CachedBatch` | induction over the batch with the invariant of C48 |
| C130 | `Props/Switches` (`StepLemmas`) | a preorder on enforcers (flags kept, logs only grow) that every call respects, by composition; then induction over the history |
| C101 | `Props/Malformed` (`GrammarLemmas`) | soundness of the parser for a grammar of token lists; parentheses and quotations counted in the text and in its tokens |
| C68–C70, C103, C104, C107, C110 | `Props/AnyLength` | the same answers for rules of any length, read in order |
| C108, C109, C123 | `Props/AnyRule` | any rules, those the matcher refuses too; all outcomes of `IPMatch` |
| C131, C132 | `Props/Printing` | texts of addresses, masks and roles |
| C133, C109 | `Props/Regex` | the backtracking matcher tries all splits; the reader inverts the grammar, and reads nothing else |
| C134 | `Props/Floats` | rounding to a binary format is nearest, exact and monotone; the reader inverts written numbers |
| C135 | `Props/History` | the names of a matcher mean the same under models with the same rules and links, by induction over expressions; links are those of the rules (C06, C69) |
| C136 | `Props/Sharing` | a callback that is not kept is not called; reading back what was written (C42) and C135 |
| C137, C138 | `Props/Python` | the tables of the module are checked line by line (`decide` over the whole table); loading and showing values by cases on the type |
| C139 | `Props/Making` | as C115: the used object is the new one with further role managers in front; the constructors by cases |
| C140 | `Props/CachedUsers` | induction over the names with the invariant of C48; the reads only create the section `g` |
| C141, C14 | `Props/SetStorage` | a match of the pattern lies in one part between ` && `; removal acts on each part alone; C98 for the text of the conjunction |
| C142 | `Props/RoleCost` | the calls are counted in a second copy of the search (`RoleCost.lean`, shown equal in C142_same); an unsuccessful search makes one for each walk; induction over the layers |
| C143, C144 | `Props/Custom` | a second `m_enforce` with the evaluator and the effector as arguments (`Custom.lean`), shown to be the first one for the classes of the library (C144_library); `Lawful` ties an evaluator to a function from texts and fields to truth values, `oracle` is one for each such function |
| C145 | `Props/Growth` | the evaluator with its vector of function objects (`Growth.lean`) as an implementation for `Custom.lean`; invariants through a request (`GrowthLemmas`) |
| C146 | `Props/Questions` | what a call that asks keeps (`QuestionLemmas`, on the invariants of `GrowthLemmas` and the relation of `CustomAgree`) |
| C147 | `Props/CachedWorlds` | worlds of caching enforcers (`CachedWorld`); an invariant on all copies of one enforcer that share its evaluator or not |
| C148 | `Props/AutoLoads` | the steps of `Ticker`, with an invariant for loads that are in time |
| C149 | `Props/AutoThreads` | the two calls step by step, by any threads (`AutoThreads`); an invariant on which tickers exist |
| C150 | `Props/Store` | every editing call as a function on lists of rules (`reference`), written with `List.Perm` |
| C151 | `Props/CachedExact` | the history itself (`FirstAnswer`, `Unanswered`): which earlier request was first answered |
| C152 | `Props/KeyDots` | the pieces of the template and what each stands for (`Piece.Takes`, `Covers`), place by place up to dots (`UpToDots`) |
| C153 | `Props/PatternRoles` | a graph of names and links that calls change (`Graph`); for rules, which match counts by the positions of the names in the rules (`Before`) |
| C154 | `Props/Exceptions` | the answers and rules of `reference` (C150); which calls the adapter rejects (`Rejects`); length of grouping rules (`LongEnough`) |
| C155 | `Props/Destroy` | order of destruction (`TickerFirst`); no threads left (`Quiet`); infinite executions and stuck states |
| C156 | `Props/Sections` | `Links`: the links a list of rules stands for; `Mirrors` and `StoredLinks` as for C23 |
| C157 | `Props/OtherTypes` | `Agree`: the parts of two models a decision may read; `lineType`: the text before the first comma |
| C158 | `Props/Recover` | `OnlyRules` and `Tame`: loads of the history change rules only; `Working`: definitions and role manager of the enforcer |
| C159, C160 | `Props/Effort` | the evaluator with a record of its texts, compilations and evaluations (`Effort.lean`, shown to answer alike in C159_same); what each part of a request adds to the record (`EffortLemmas`) |
| C161 | `Props/Replica` | `follow`: a store that carries out the calls of the adapter interface; combines the calls of C44 with the rules of C150 |
| C162 | `Props/FactoryThreads` | the factory cut at its uses of the static pool, threads in any order (`FactoryThreads.lean`); invariant: every entry of the pool was made for its key |
| C163 | `Props/Effectors` | the enforcer with its effector as a member (`Effectors.lean`), any calls; `C163_library` ties it to the enforcer of the other properties |
| C164 | `Props/Cleaning` | an evaluator with the functions destroyed by `Clean` (`Cleaning.lean`); simulation with a new evaluator up to the first compilation |
| C165 | `Props/Direct` | invariant: the tables hold what was entered, and what is compiled is the text remembered (`DirectLemmas`) |
| C166 | `Props/Locality` | C69 before and after the call, with the rules of C150; a path that is lost or won has a first link that is |
| C167 | `Props/Tenants` | as C166, with C70; induction over the calls |
| C168 | `Props/Getting`, `GettingLemmas` | as C165, with a second table of names; induction over the calls |
| C169 | `Props/SetStore` | what a call may do to a set (`Follows`), for every order of iteration; told by the members when no two rules have the same values |
| C170 | `Props/Revoke` | the reference of C150 for the removals, then the end-to-end answers of C69 and C70 on what is left |
| C171 | `Props/RoleRaise` | the role manager of `RoleManager.lean` with "no" in place of an exception; the function answers about the name and all names entered, or what comes out is its exception |
| C172 | `Props/NoUb`, `Props/NoUbCached`, `Props/NoUbSynced` (lemmas in `SafeLemmas`, `SafeModel`, `SafeRequest`, `SafeCalls`) | the constructor `ub` of `Outcome` is not among the answers; the conditions (`Needs`) are on the arguments of the call, the shape the user keeps to, and for four kinds of calls on the adapter or the links |
| C173 | `Props/Renaming`, `Props/RenamingLists` | the reference of C150 and the paths of C69 and C70 commute with a one-to-one change of names |
| C174 | `Props/Commute` | the reference of C150 reaches only rules with the values of one the call names; so two calls that name no such rule in common commute |
| C175, C176 | `Props/Retry`, `Props/RetrySet` | the reference of C150 applied twice, and after the reference of the inverse call; a set follows the list of its members (C169), also for C174 |
| C177 | `Props/SyncedEval` | the evaluator beside the enforcer is like the evaluator alone (relation of C144), with the lock taken |
| C178 | `Props/Gains` | a path with one more edge either does without it or goes on from its end |
| C179 | `Props/Process` | the program with the mutex simulates the one without, until a malformed file is read; then the mutex is never free again |
| C180 | `Props/ConfigThreads` | invariant: who is inside holds the mutex or the lock; a measure that every step of a thread lowers; a locked mutex with nobody inside stays so |
| C181 | `Props/Starving` | executions without end; whoever has the lock alone gives it back in the next step; a measure of the steps of one thread; an explicit execution with period four |
| C182 | `Props/PythonMaking` | what each parameter takes, both ways; cases over the seven overloads |
| C183 | `Props/Defined` | an invariant of every step of an editing call (`TypeLemmas.lean`) |
| C83, C84 | `Props/Definitions`, `Props/PolicyTexts` | from the texts of model and policy to decisions |

## 5. Where the code violates a property

Such properties are kept as stated; the negation is proved with a concrete witness (theorem
`..._fails`), and what does hold is proved as `..._partial`. Recorded disagreements:

| id | the code |
|----|----------|
| C07, C13, C68, C69 | with no rule to look at, the matcher is evaluated on empty strings: a request of empty strings is granted; deny-override grants everything |
| C08 | a disabled enforcer denies a request with the wrong number of values |
| C11 | variables of JSON values and a failed compilation survive the request |
| C14, C15, C68 | hash storage: blank requests, requests with a NUL character, reordered columns, an effect column, custom matchers |
| C16 | an empty `eval()` text on a new enforcer is taken for the compiled one; NaN counts as true |
| C19, C20, C70 | names and domains are joined by `::` without escaping |
| C22 | `g` follows ten links, implicit roles any number |
| C23 | `AddGroupingPolicy` links a refused rule; a refused update erases the old rule and keeps its link |
| C24 | with a pattern function the order of the rules matters |
| C25 | all grouping types share one role manager |
| C26–C28, C30, C40 | rules are compared as sorted lists of values |
| C27 | a rejected adapter call leaves the rule stored |
| C29 | a batch may repeat a rule |
| C30 | batch calls with a non-batch adapter dereference null |
| C31 | `RemovePolicies` calls `AddPolicies` |
| C32 | updates are not atomic |
| C34 | filters and columns beyond the end of a rule read outside |
| C35, C39 | the empty name is a wildcard of the filter; only `p` and `g` are searched |
| C38 | an undefined policy type is a null dereference |
| C42, C47 | `StringAdapter` throws on the empty text and does not trim lines |
| C43 | `LoadPolicy` empties the model before it asks the adapter |
| C44 | updates make no adapter call |
| C45 | an extended watcher never gets the incremental calls |
| C46 | `StringAdapter::RemovePolicy` empties the store |
| C48, C82 | the cache key does not escape its separator and lacks the names of a map |
| C50 | no edit empties the cache |
| C51 | 33 calls of the synchronised enforcer lock the mutex twice |
| C52 | inherited calls without lock; calls that lock anew for each part; writes under the shared lock |
| C53 | `stop` can wait for the timer loop while holding the mutex it wants |
| C55 | `Set` and `Get` take a key beginning with `::` differently |
| C56 | a line of blanks is rejected |
| C57 | a malformed file leaves the class mutex locked |
| C58 | `std::out_of_range` in place of the missing-sections exception |
| C59 | a policy definition before matcher or request is lost; the storage depends on the order |
| C63 | a plain address as a pattern throws |
| C64, C80 | `.` and `+` of a template are not escaped |
| C71 | the rule text is pasted without parentheses |
| C72 | a request before the first role freezes `g` without role manager |
| C73, C74 | blocks within `::ffff:0:0/96` |
| C79 | two parameters in a segment make `KeyMatch4` throw |
| C85 | `SyncedEnforcer::SetWatcher` stores the watcher where nobody looks |
| C86 | `StopAutoLoadPolicy` before any start dereferences null |
| C87 | `DeleteRole` keeps the roles granted to the role; the empty name removes everything |
| C88 | empty values of a permission stand for any value |
| C89, C91 | rules are compared as sorted lists of values; domains with colons |
| C90 | a refused rule is linked all the same |
| C92 | `filterWords` returns an uninitialised variable for every line that passes |
| C93 | a null filter loads the file twice and marks the policy as filtered |
| C94 | `SavePolicy` of an unfiltered policy calls itself |
| C95 | a list of one empty text; integers that do not fit |
| C96 | `StringAdapter::RemovePolicy` returns without having done it |
| C99 | `&&` becomes `and` without blanks: `a&&b` is one name |
| C100 | `&&` and `||` are replaced inside quoted texts |
| C101 | two conditions without an operator are two statements; the value is that of the last |
| C104 | with no rule to look at, empty strings are equal to the empty fields |
| C105 | `in` with a list is no expression of exprtk; `globMatch` and `keyMatchCustom` are not registered |
| C107 | with no rule, the fields are empty strings and their effect counts as allow |
| C108 | `and` evaluates both sides; a subject that is no block throws whatever the object is |
| C109 | the same with a regular expression that the library refuses |
| C110 | `g` and `g2` share one role manager: names of resources and of users are the same names |
| C112 | a map that lacks a field takes the value of the request before; an entry whose name is no identifier is a null dereference |
| C113 | JSON objects are never entered into the symbol table: the ABAC example grants nothing |
| C114 | a map entry whose name is a field in another case overwrites the field |
| C115 | `SetModel` and `LoadModel` drop the watcher and switch everything on again |
| C116 | `FindAllOccurences` of the empty text does not end (the function is not used) |
| C117 | an evaluator used with two enforcers keeps the role manager of the first: the second grants by the first one's roles |
| C118 | after a request, `SetRoleManager` has no effect on decisions: the evaluator keeps the old role manager, also after `BuildRoleLinks` |
| C119 | copies of enforcers share everything: an edit through the copy changes the original |
| C121 | a request in progress stores its old answer after `InvalidateCache`; later requests get it |
| C122 | `::1.2.3.4` is not found in `::102:300/124`: a group is kept as its high byte and all its 16 bits, a partial mask is `0xFFxx`, so a mask that ends in the second of the two bytes compares bits of the first; no IPv6 address is in a block within `::ffff:0:0/96` |
| C124 | `EnableLog` switches a copy of the logger, so nothing is ever logged; after `SetLogger` with a logger that is on, `DefaultLogger::Print` calls itself without end, so no request is granted |
| C41 | `GetImplicitUsersForPermission` reports nobody when the request of one of the names throws, e.g. a rule with too few values; users that are allowed are lost (`C41_fails`) |
| C84 | a policy line of a type that the model does not define dereferences a null pointer in the constructor; without rules a request of empty strings is granted |
| C126, C127 | `RemoveNamedGroupingPolicies`, `RemoveGroupingPolicies` and `RemovePolicies` add the rules they are given; `UpdateNamedGroupingPolicy` to a rule that is stored removes the old rule and answers `false` |
| C128 | `GetPermissionsForUser("")` lists the permissions of everybody |
| C129 | two requests of one batch may share a key; after a change of the rules `BatchEnforce` and `BatchEnforceWithMatcher` disagree |
| C130 | with `EnableAutoBuildRoleLinks(false)` adding a grouping rule still makes the role link, and removing the rule leaves (in fact makes) it |
| C131 | `CIDRMask` makes the last element of a mask of `n` bits, `n` no multiple of 8, a 16 bit number: the mask of 25 bits is written `255.255.255.65408` |
| C131 | `IP::toString` writes an IPv6 address as its last four elements: `2001:db8::1` is written `0.0.0.1` |
| C131 | `IP::Equal` says that `1.2.3.4` and `::ffff:1.2.3.4`, or `::1.2.3.4` and `::102:304`, differ |
| C132 | `PrintRoles` of a role manager without roles dereferences `end()` |
| C134 | `GetFloat` rounds twice, to `double` and to `float`, and may miss the nearest `float` |
| C135 | adding a rearrangement of a stored grouping rule stores nothing and reports `false`, but links the roles |
| C136 | `Watcher::SetUpdateCallback` is an empty template: the callback that would reload the policy is never kept |
| C137 | `PoliciesValues`, `DataList`, `RoleManager`, `Watcher`, `Effector` and `policy_op` are declared to no `py::class_` and have no caster: the bound functions that use them cannot be called or cannot give their result; eight methods are not bound; no default is passed to `def` |
| C138 | `Model::RemoveFilteredPolicy` is bound with a result that Python cannot be given: the rules are gone when the `TypeError` is raised |
| C139 | `InitWithModelAndAdapter` loads when the adapter is not filtered, the constructor when it is valid; `m_model_path` is set only at the end of the functions that take a path, and never reset |
| C140 | `GetImplicitUsersForPermission` asks through the map, which a change of the rules does not empty |
| C141, C14 | `IsHashsetUsagePossible` removes all matches of each pattern and only counts the ` && ` that are left, so a comparison written twice stands for two; the dots of its patterns are not escaped |
| C142 | `Role::HasRole` keeps no record of the roles it has been to, so its work is the number of walks, which is a power of the number of roles |
| C143 | `explainIndex` in `m_enforce` is not initialised: an effector that does not write it leads to undefined behaviour; with an empty policy the effector is told of a rule that matched |
| C144 | `m_enforce` does not look at what `Eval` returns in the loop over the rules |
| C145 | `ExprtkEvaluator::AddFunction` keeps every function object it is given, and each request gives it nine new ones and one for each grouping type |
| C146 | with a matching function `HasLink` and `GetRoles` enter the name asked about and its links, so a request changes what `GetUsersForRole` answers; `GetValuesForFieldInPolicyAllTypes` makes a missing section |
| C147 | copies of a `CachedEnforcer` share the model but not the map: a rule removed and the cache emptied through one leaves the other granting |
| C148 | `timer_loop` does not wait for the last load before it launches the next, and `_futures2` is never emptied |
| C149 | `StartAutoLoadPolicy` tests and sets the flag in two steps and replaces the ticker without a lock: of two overlapping calls one uses a destroyed ticker |
| C169 | rules with the same values in another order can be put into the set by one batch; which of them is removed depends on the order of the hash table |
| C170 | `DeleteUser` of a model without `g` dereferences a null pointer (rbac_api.cpp 94); if removing the roles raises an exception the rules of the user stay; a removal may take another arrangement of the values and answers `true` |
| C171 | `CreateRole` enters the name before it asks the matching function (default_role_manager.cpp 114–140), so a malformed pattern stays entered by the call that raised, and from then on `HasLink` raises for all names until `Clear` |
| C172 | undefined behaviour is reached by: a policy type that the model does not define; a rule shorter than a query or filter reads; `AddPolicies`/`RemovePolicies` with automatic saving and an adapter that is no `BatchAdapter`; `GetRolesForUser` and the like before there are links; `LoadPolicy` of a text with a line of an undefined type, which `SavePolicy` itself writes for a value with a line break |
| C173 | names are compared only, except: the empty text in a filter, and in domains names with `::` (C19, C70) |
| C174 | two calls naming different rules with the same values in another order do not commute: only the first to come is added |
| C175 | retrying a batch of updates that keeps one of its rules loses this rule; retrying a removal takes away one more of several rules with the same values |
| C176 | a batch of additions is not undone by RemovePolicies, nor the removal of a rule named with its values in another order by adding it |
| C177 | an evaluator of the caller that asks the synchronised enforcer for a rule waits for the lock its request holds |
| C178 | a role that is granted a request through ten other roles does not give it to a user who gets the role |
| C179 | after one malformed model file no enforcer of the program can be made from a file any more |
| C180 | a thread that only asks a synchronised enforcer waits for ever because another has read a malformed file and a third is loading the model |
| C181 | two threads that keep listing the rules keep a third from ever changing them |
| C182 | `Enforcer(None)` in Python dereferences a null pointer |
| C168 | `GetString` (evaluator.cpp 106–109) answers with the last assignment that was evaluated, also after a refused text and after one that assigns nothing; an identifier with the name given to `EnableGet` takes the assignment; `EnableGet` does not say when exprtk refuses the name. A matcher that is only a call of `keyGet` never holds (exprtk_config.h 184, 226) |
| C167 | removing a rule of one domain takes out a rule of another that has the same values in another order |
| C166 | removing a rule whose values are stored in another order takes a permission from another subject; a grouping rule refused with `false` still gives its role |
| C165 | `Eval` (evaluator.cpp 29–40) does not compile the text it was given last, even if it failed; `GetBoolean` (98–100) answers for the text before a refused one, and true on a new evaluator; `AddIdentifier` (158–164) dereferences null for a name reserved by exprtk |
| C164 | `Clean` (evaluator.cpp 116–120) destroys the functions, but `symbol_table::clear` leaves them in `generic_function_store` (exprtk.hpp 20513–20543), and `add_function` does not replace them: the next matcher that calls `g` or `keyMatch` uses a destroyed object |
| C163 | `Initialize` (enforcer.cpp 342) makes a default effector, and `SetModel` and `LoadModel` call it: an effector given by `SetEffector` is dropped without a word; a null one is called through (215) |
| C162 | the pool of `GetExprtkFunction` is a `static` map without a lock: between `pool[key] = func` and `pool.clear()` (exprtk_config.h 300, 302) a request of an unrelated enforcer takes the function with the role manager of the other; between `find` and `pool[key]` it can get null |
| C161 | the store diverges from the model by updates (no adapter call), by `RemovePolicies` (adds to the model, removes from the store), and by removing a rearranged rule (the model loses it, the store keeps it) |
| C160 | `CheckType` evaluates the matcher once or twice to find its type (evaluator.cpp 91), is called twice for numbers (enforcer.cpp 145, 150), and the value is computed again: two, three or five evaluations for a rule |
| C158 | `Model::RemoveFilteredPolicy` turns a set of rules into a vector for good (model.cpp 404, 422), so a later load does not restore the answers of set storage |
| C156 | `removePolicy("g", …)` builds the links of the removed rule once more (internal_api.cpp 89) and removes none; `removeFilteredPolicy("g", …)` and `updatePolicies("g", …)` remove links that remaining rules still give |
| C155 | the destructor of a synced enforcer may wait for ever in `~Ticker`; `~Enforcer` is not virtual, so `delete` of an `Enforcer*` leaves the ticker running over a destroyed enforcer |
| C154 | a call that raises an exception has changed the rules already; repeating it answers `false` and never reaches the adapter; a grouping rule with too few values is stored and blocks every later rebuilding of the roles |
| C153 | with a matching function a match counts for a name on the way only if the pattern was entered first; a role that does not match itself has no users; a pattern in the place of the domain gives nothing in other domains |

## 6. Seeded bugs

The theorems are tested against wrong programs: a definition of the model is edited in a scratch copy
the way a programmer might get it wrong, and the copy is rebuilt. `seeded/LOG.jsonl` records each
attempt, which theorems failed, and which were tightened because they did not.
