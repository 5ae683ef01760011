{"id": "C01", "title": "Allow-override decision", "statement": "With policy effect `some(where (p.eft == allow))` and a non-empty candidate policy whose rules all have the declared arity, Enforce returns true exactly when some rule both satisfies the matcher and has effect allow (a rule with no eft column counts as allow), and false otherwise; the short-circuit never changes the answer.", "quantifier": "every policy (any length, any order), every matcher outcome per rule, every effect column content", "why_tests_cant": "The number of rules and of match/effect combinations is unbounded; tests sample a few short policies.", "anchors": ["casbin/effect/default_effector.cpp: DefaultEffector::MergeEffects", "casbin/enforcer.cpp: Enforcer::m_enforce"]}
{"id": "C02", "title": "Deny-override decision", "statement": "With policy effect `!some(where (p.eft == deny))` and a non-empty candidate policy, Enforce returns false exactly when some rule satisfies the matcher and has effect deny, and true otherwise.", "quantifier": "every non-empty policy and every matcher outcome", "why_tests_cant": "Unbounded policies; a missed deny at one position is only seen if a test puts one exactly there.", "anchors": ["casbin/effect/default_effector.cpp: DefaultEffector::MergeEffects", "casbin/enforcer.cpp: Enforcer::m_enforce"]}
{"id": "C03", "title": "Allow-and-deny decision", "statement": "With policy effect `some(where (p.eft == allow)) && !some(where (p.eft == deny))` Enforce returns true exactly when some matching rule allows and no matching rule denies.", "quantifier": "every non-empty policy and every matcher outcome", "why_tests_cant": "Interaction of two quantifiers over an unbounded list with early exit.", "anchors": ["casbin/effect/default_effector.cpp: DefaultEffector::MergeEffects", "casbin/enforcer.cpp: Enforcer::m_enforce"]}
{"id": "C04", "title": "Priority decision", "statement": "With policy effect `priority(p.eft) || deny` the first rule in policy order that satisfies the matcher and has effect allow or deny decides; when there is none the request is denied.", "quantifier": "every non-empty policy and every matcher outcome", "why_tests_cant": "Order sensitivity over arbitrarily long policies.", "anchors": ["casbin/effect/default_effector.cpp: DefaultEffector::MergeEffects", "casbin/enforcer.cpp: Enforcer::m_enforce"]}
{"id": "C05", "title": "Explanation names the deciding rule", "statement": "EnforceEx fills `explain` with a rule that is in the policy, satisfies the matcher and has the effect that decided the request, and it is the first such rule in policy order; it leaves `explain` empty exactly when no single rule decided (default allow / default deny / disabled).", "quantifier": "every policy, request and effect expression", "why_tests_cant": "The index returned must be right for every position of the deciding rule.", "anchors": ["casbin/enforcer.cpp: Enforcer::m_enforce", "casbin/enforcer.cpp: Enforcer::EnforceEx", "casbin/effect/default_effector.cpp: DefaultEffector::MergeEffects"]}
{"id": "C06", "title": "Rule order is irrelevant except for priority", "statement": "For the three non-priority effect expressions the decision is the same for every ordering of the same rules (hence for every hash-set iteration order); for the priority effect the decision can depend on the order.", "quantifier": "every policy and every permutation of it", "why_tests_cant": "n! orders; hash iteration order is not controllable from a test.", "anchors": ["casbin/enforcer.cpp: Enforcer::m_enforce", "casbin/effect/default_effector.cpp: DefaultEffector::MergeEffects"]}
{"id": "C07", "title": "Monotonicity of grants and denials", "statement": "Adding a rule with effect allow never turns an allowed request into a denied one under allow-override; adding a rule with effect deny never turns a denied request (on a non-empty policy) into an allowed one under deny-override or allow-and-deny.", "quantifier": "every policy, request, added rule and insertion position", "why_tests_cant": "A statement about pairs of arbitrary policies.", "anchors": ["casbin/effect/default_effector.cpp: DefaultEffector::MergeEffects", "casbin/enforcer.cpp: Enforcer::m_enforce"]}
{"id": "C08", "title": "Disabled enforcer allows everything", "statement": "After EnableEnforce(false) every Enforce call returns true (with an empty explanation) whatever the policy, until EnableEnforce(true).", "quantifier": "every enforcer state and request", "why_tests_cant": "All states and requests, including ones that would throw when enabled.", "anchors": ["casbin/enforcer.cpp: Enforcer::m_enforce, Enforcer::EnableEnforce, Enforcer::EnforceExWithMatcher"]}
{"id": "C09", "title": "Wrong number of request values is denied", "statement": "Enforce with a list or vector of a length different from the request definition returns false and changes nothing observable (policy, evaluator variables, role links, store).", "quantifier": "every enforcer state and every request length", "why_tests_cant": "All lengths and all states.", "anchors": ["casbin/enforcer.cpp: Enforcer::EnforceExWithMatcher(DataList|DataVector)"]}
{"id": "C10", "title": "A rule of the wrong length never grants", "statement": "A stored rule whose number of fields differs from the policy definition never grants access: Enforce either decides from well-formed rules that precede it or throws.", "quantifier": "every policy containing malformed rules at any position", "why_tests_cant": "Position/short-circuit interaction over unbounded policies.", "anchors": ["casbin/enforcer.cpp: Enforcer::m_enforce"]}
{"id": "C11", "title": "Requests do not leak into each other", "statement": "The decision for a request depends only on the policy, roles and the request itself, not on requests enforced earlier on the same enforcer.", "quantifier": "every history of earlier requests (of any form: list, vector, map, string or JSON values) and every request", "why_tests_cant": "A statement about all histories; leaks need the right previous request.", "anchors": ["casbin/enforcer.cpp: Enforcer::EnforceExWithMatcher", "casbin/model/evaluator.cpp: ExprtkEvaluator::Eval, PushObjectString, PushObjectJson, AddIdentifier, Clean"]}
{"id": "C12", "title": "BatchEnforce equals one-by-one enforcement", "statement": "BatchEnforce(rs) returns exactly the list of the answers Enforce would give for each element of rs in order; BatchEnforceWithMatcher likewise with the custom matcher; the first throwing element aborts the batch.", "quantifier": "every batch and every enforcer state", "why_tests_cant": "Unbounded batches and evaluator state carried between elements.", "anchors": ["casbin/enforcer.cpp: Enforcer::BatchEnforce, Enforcer::BatchEnforceWithMatcher"]}
{"id": "C13", "title": "Empty policy denies", "statement": "When the policy holds no p rules, every request is denied.", "quantifier": "every model definition, effect expression and request", "why_tests_cant": "All requests, including the degenerate ones with empty strings.", "anchors": ["casbin/enforcer.cpp: Enforcer::m_enforce (empty-policy branch)"]}
{"id": "C14", "title": "Hash storage does not change decisions", "statement": "When the model qualifies for hash-set policy storage, Enforce returns the same answer as a linear scan of the same rules with the model's matcher would.", "quantifier": "every policy, policy definition and request for which hash storage is selected", "why_tests_cant": "Equivalence of two implementations on all inputs.", "anchors": ["casbin/selected_policies.cpp: SelectedPolicies::operator*", "casbin/model/model.cpp: IsHashsetUsagePossible", "casbin/enforcer.cpp: Enforcer::m_enforce"]}
{"id": "C15", "title": "A custom matcher is evaluated against the whole policy", "statement": "EnforceWithMatcher(m, req) decides by evaluating m against every stored rule, also when policies are stored in a hash set.", "quantifier": "every policy, custom matcher and request", "why_tests_cant": "All matchers are inputs.", "anchors": ["casbin/selected_policies.cpp: SelectedPolicies", "casbin/enforcer.cpp: Enforcer::EnforceWithMatcher"]}
{"id": "C16", "title": "Errors deny: unsupported effect and failed evaluation never grant", "statement": "Enforce never returns true when the effect expression is not one of the four supported ones, or when the matcher fails to compile or evaluate: it throws or returns false.", "quantifier": "every effect string, matcher and policy", "why_tests_cant": "All strings are inputs.", "anchors": ["casbin/enforcer.cpp: Enforcer::m_enforce", "casbin/effect/default_effector.cpp: DefaultEffector::MergeEffects"]}
{"id": "C17", "title": "HasLink is bounded reachability", "statement": "HasLink(a,b) is true exactly when a = b, or b can be reached from a by at most max_hierarchy_level AddLink edges; cycles are handled.", "quantifier": "every role graph (any size, cyclic or not), every pair of names, every hierarchy bound", "why_tests_cant": "All graphs; depth-first search with a depth bound.", "anchors": ["casbin/rbac/default_role_manager.cpp: DefaultRoleManager::HasLink, Role::HasRole"]}
{"id": "C18", "title": "AddLink and DeleteLink edit exactly one edge", "statement": "AddLink(a,b) adds the direct role b to a and changes no other direct role; it is idempotent. DeleteLink(a,b) removes exactly that direct role and throws, changing nothing, when a or b is unknown. The set of direct roles after a sequence of AddLink calls does not depend on their order.", "quantifier": "every role manager state and every sequence of links", "why_tests_cant": "All histories.", "anchors": ["casbin/rbac/default_role_manager.cpp: AddLink, DeleteLink, CreateRole, Role::AddRole, Role::DeleteRole"]}
{"id": "C19", "title": "Domains are isolated", "statement": "Links added in one domain never make HasLink, GetRoles or GetUsers answer differently in another domain or without a domain.", "quantifier": "every pair of distinct domains, every role graph, all names", "why_tests_cant": "All strings for domain and names, including separators.", "anchors": ["casbin/rbac/default_role_manager.cpp: AddLink, HasLink, GetRoles, GetUsers"]}
{"id": "C20", "title": "GetUsers is the converse of GetRoles", "statement": "u is in GetUsers(r) exactly when r is in GetRoles(u), with and without a domain.", "quantifier": "every role manager state reachable by AddLink/DeleteLink/Clear, all names", "why_tests_cant": "All graphs.", "anchors": ["casbin/rbac/default_role_manager.cpp: GetRoles, GetUsers"]}
{"id": "C21", "title": "Implicit roles are the transitive closure", "statement": "GetImplicitRolesForUser(u) terminates on every role graph and returns, without duplicates, exactly the names other than u reachable from u by one or more links.", "quantifier": "every role graph, cyclic or not, every user", "why_tests_cant": "Termination and closure on all graphs.", "anchors": ["casbin/rbac_api.cpp: Enforcer::GetImplicitRolesForUser"]}
{"id": "C22", "title": "Implicit roles agree with enforcement", "statement": "r is reported by GetImplicitRolesForUser(u) exactly when the matcher function g(u, r) holds for r other than u.", "quantifier": "every role graph and pair of names", "why_tests_cant": "Deep hierarchies beyond any tested depth.", "anchors": ["casbin/rbac_api.cpp: Enforcer::GetImplicitRolesForUser", "casbin/rbac/default_role_manager.cpp: HasLink"]}
{"id": "C23", "title": "Role links mirror the grouping rules", "statement": "With automatic role-link building on, after any sequence of grouping-policy calls the role links used by enforcement are exactly those of the stored grouping rules.", "quantifier": "every sequence of AddGroupingPolicy/RemoveGroupingPolicy/UpdateGroupingPolicy/AddGroupingPolicies/... calls", "why_tests_cant": "Invariant over all histories.", "anchors": ["casbin/management_api.cpp: AddNamedGroupingPolicy, RemoveNamedGroupingPolicy, UpdateNamedGroupingPolicy", "casbin/internal_api.cpp", "casbin/model/assertion.cpp: BuildIncrementalRoleLinks, BuildRoleLinks"]}
{"id": "C24", "title": "Rebuilding forgets old links", "statement": "BuildRoleLinks makes role membership depend only on the stored grouping rules (not on links added before), independently of the order in which the rules are stored.", "quantifier": "every prior role-manager state and rule list", "why_tests_cant": "All prior histories.", "anchors": ["casbin/enforcer.cpp: Enforcer::BuildRoleLinks", "casbin/model/model.cpp: Model::BuildRoleLinks", "casbin/model/assertion.cpp: Assertion::BuildRoleLinks"]}
{"id": "C25", "title": "Grouping types are independent relations", "statement": "Rules of grouping type g2 never create membership seen by matcher function g, and vice versa.", "quantifier": "every model with several role definitions and every policy", "why_tests_cant": "All combinations of relations.", "anchors": ["casbin/model/model.cpp: Model::BuildRoleLinks", "casbin/enforcer.cpp: Enforcer::m_enforce"]}
{"id": "C26", "title": "HasPolicy reports membership", "statement": "HasPolicy(rule) is true exactly when a rule with the same values in the same positions is stored.", "quantifier": "every policy and rule", "why_tests_cant": "All rules, including permutations of stored ones.", "anchors": ["casbin/model/model.cpp: Model::HasPolicy", "casbin/util/array_equals.cpp: ArrayEquals"]}
{"id": "C27", "title": "AddPolicy adds exactly the rule", "statement": "AddPolicy(rule) returns true and appends the rule when it is not stored, and returns false and changes nothing when it is; all other rules keep their order.", "quantifier": "every policy and rule", "why_tests_cant": "All policies.", "anchors": ["casbin/model/model.cpp: Model::AddPolicy", "casbin/internal_api.cpp: Enforcer::addPolicy"]}
{"id": "C28", "title": "RemovePolicy removes exactly the rule", "statement": "RemovePolicy(rule) removes one stored copy of exactly that rule and returns true, or changes nothing and returns false when it is not stored; the order of the remaining rules is kept.", "quantifier": "every policy and rule", "why_tests_cant": "All policies, including ones containing permutations of the rule.", "anchors": ["casbin/model/model.cpp: Model::RemovePolicy", "casbin/internal_api.cpp: Enforcer::removePolicy"]}
{"id": "C29", "title": "No duplicate rules", "statement": "A policy that starts without duplicates never contains the same rule twice after any sequence of policy-editing calls.", "quantifier": "every history of Add/Remove/Update calls", "why_tests_cant": "Invariant over all histories.", "anchors": ["casbin/model/model.cpp: AddPolicy, AddPolicies, UpdatePolicy, UpdatePolicies, RemovePolicy, RemoveFilteredPolicy"]}
{"id": "C30", "title": "Batch add is all-or-nothing", "statement": "AddPolicies(rules) either adds every rule and returns true, or returns false and changes nothing; it returns false exactly when one of the rules is already stored.", "quantifier": "every policy and batch", "why_tests_cant": "All batches and states.", "anchors": ["casbin/model/model.cpp: Model::AddPolicies"]}
{"id": "C31", "title": "Batch remove removes", "statement": "RemovePolicies(rules) removes all the given rules when all are stored and returns true; otherwise it changes nothing and returns false.", "quantifier": "every policy and batch", "why_tests_cant": "All batches; the shipped test only checks that the expected rules are contained in the result.", "anchors": ["casbin/internal_api.cpp: Enforcer::removePolicies", "casbin/model/model.cpp: Model::RemovePolicies"]}
{"id": "C32", "title": "Update is atomic", "statement": "UpdatePolicy(old,new) replaces old by new and returns true, or changes nothing and returns false; UpdatePolicies likewise for the whole batch.", "quantifier": "every policy, old and new rules", "why_tests_cant": "All failure points of the multi-step update.", "anchors": ["casbin/model/model.cpp: Model::UpdatePolicy, Model::UpdatePolicies", "casbin/internal_api.cpp: updatePolicy, updatePolicies"]}
{"id": "C33", "title": "Filtered removal is the complement of filtered lookup", "statement": "RemoveFilteredPolicy(i, vs) removes exactly the rules GetFilteredPolicy(i, vs) returns, keeps the others in order, and returns true exactly when that set was non-empty; an empty filter value matches everything.", "quantifier": "every policy whose rules are long enough for the filter, every filter", "why_tests_cant": "All filters and policies.", "anchors": ["casbin/model/model.cpp: Model::GetFilteredPolicy, Model::RemoveFilteredPolicy"]}
{"id": "C34", "title": "Filters never read outside a rule", "statement": "Filtered lookup and removal and the GetAll* queries never access a field beyond the end of a rule.", "quantifier": "every policy, field index and filter", "why_tests_cant": "Memory safety over all shapes of rules.", "anchors": ["casbin/model/model.cpp: GetFilteredPolicy, RemoveFilteredPolicy, GetValuesForFieldInPolicy"]}
{"id": "C35", "title": "Deleting a user affects only that user", "statement": "DeleteUser(u), DeleteRolesForUser(u) and DeletePermissionsForUser(u) leave every rule about other users untouched, and afterwards no rule with subject u is left.", "quantifier": "every policy and user name", "why_tests_cant": "All names, including the empty one.", "anchors": ["casbin/rbac_api.cpp: DeleteUser, DeleteRolesForUser, DeletePermissionsForUser"]}
{"id": "C36", "title": "GetAll* lists are exact and duplicate-free", "statement": "GetAllSubjects/Objects/Actions/Roles return every value occurring in the column exactly once and nothing else.", "quantifier": "every policy with rules long enough", "why_tests_cant": "All policies.", "anchors": ["casbin/model/model.cpp: GetValuesForFieldInPolicy, GetValuesForFieldInPolicyAllTypes", "casbin/util/array_remove_duplicates.cpp"]}
{"id": "C37", "title": "Editing one policy type leaves the others alone", "statement": "Add/Remove/Update calls for one policy type change no rule of any other policy type and no model definition.", "quantifier": "every model state and editing call", "why_tests_cant": "Frame property over all states.", "anchors": ["casbin/model/model.cpp", "casbin/internal_api.cpp"]}
{"id": "C38", "title": "Unknown policy types are rejected safely", "statement": "Management calls naming a policy type or section that the model does not define fail with an exception or false, and never corrupt the model.", "quantifier": "every model and policy-type name", "why_tests_cant": "All names.", "anchors": ["casbin/model/model.cpp: m[sec].assertion_map[p_type]", "casbin/persist/adapter.cpp: LoadPolicyLine"]}
{"id": "C39", "title": "Implicit permissions are exactly the inherited rules", "statement": "GetImplicitPermissionsForUser(u) returns exactly the p rules whose subject is u or one of u's implicit roles (within the domain when one is given).", "quantifier": "every policy, role graph and user", "why_tests_cant": "All graphs and policies.", "anchors": ["casbin/rbac_api.cpp: GetImplicitPermissionsForUser", "casbin/rbac_api_with_domains.cpp: GetPermissionsForUserInDomain"]}
{"id": "C40", "title": "Role grant and revoke round trip", "statement": "After AddRoleForUser(u,r) the user has the role (HasRoleForUser, g(u,r)); after DeleteRoleForUser(u,r) with automatic link building the direct role is gone; other users' roles are unchanged.", "quantifier": "every enforcer state with a two-place role definition, all names", "why_tests_cant": "All histories.", "anchors": ["casbin/rbac_api.cpp: AddRoleForUser, DeleteRoleForUser, HasRoleForUser"]}
{"id": "C41", "title": "Implicit users for a permission", "statement": "GetImplicitUsersForPermission(obj, act) returns exactly the subjects that occur in policies or as members in grouping rules, are not themselves roles, and are allowed (obj, act) by Enforce, each once.", "quantifier": "every policy and permission", "why_tests_cant": "All policies.", "anchors": ["casbin/rbac_api.cpp: GetImplicitUsersForPermission", "casbin/util/set_subtract.cpp"]}
{"id": "C42", "title": "Save then load is the identity", "statement": "Saving the policy and loading it again into the same model gives back the same rules for every policy type, in the same order.", "quantifier": "every policy whose values are storable (no comma or newline, no leading/trailing blanks), every number of policy types", "why_tests_cant": "All strings; separators and blanks need specific values.", "anchors": ["casbin/persist/file_adapter/file_adapter.cpp: SavePolicy, loadPolicyFile", "casbin/persist/string_adapter.cpp: SavePolicy, LoadPolicy", "casbin/persist/adapter.cpp: LoadPolicyLine", "casbin/util/array_to_string.cpp"]}
{"id": "C43", "title": "A failed load keeps the old policy", "statement": "If loading from the adapter fails, the policy in force before LoadPolicy stays in force.", "quantifier": "every adapter failure point and every prior policy", "why_tests_cant": "All failure points.", "anchors": ["casbin/enforcer.cpp: Enforcer::LoadPolicy"]}
{"id": "C44", "title": "Auto-save mirrors every successful edit", "statement": "With auto-save on, every successful policy edit makes exactly one corresponding adapter call with the same arguments, and failed edits make none.", "quantifier": "every sequence of edits", "why_tests_cant": "All histories of calls.", "anchors": ["casbin/internal_api.cpp"]}
{"id": "C45", "title": "The watcher hears about every successful edit once", "statement": "With a watcher set and notification on, every successful edit triggers exactly one notification and every failed edit none; an extended watcher receives the specific incremental call.", "quantifier": "every sequence of edits and kind of watcher", "why_tests_cant": "All histories of calls.", "anchors": ["casbin/internal_api.cpp", "casbin/util/is_instance_of.cpp"]}
{"id": "C46", "title": "Removing a rule keeps the other stored rules", "statement": "With auto-save on, removing one rule leaves all the other rules in the adapter's store.", "quantifier": "every adapter content and rule", "why_tests_cant": "All contents.", "anchors": ["casbin/persist/string_adapter.cpp: StringAdapter::RemovePolicy", "casbin/internal_api.cpp: removePolicy"]}
{"id": "C47", "title": "Policy text parsing", "statement": "Loading a policy text stores, for each non-blank non-comment line `ptype, v1, ..., vn`, exactly the rule (v1..vn) with surrounding blanks removed, in file order; comment and blank lines have no effect.", "quantifier": "every text whose policy types are defined by the model", "why_tests_cant": "All texts.", "anchors": ["casbin/persist/adapter.cpp: LoadPolicyLine", "casbin/util/split.cpp", "casbin/util/trim.cpp"]}
{"id": "C48", "title": "The cache is transparent between policy changes", "statement": "While policy, roles, model and flags do not change, CachedEnforcer answers every list/vector request exactly as Enforcer would.", "quantifier": "every sequence of requests", "why_tests_cant": "All sequences of requests; key collisions need specific strings.", "anchors": ["casbin/enforcer_cached.cpp: Enforce, EnforceWithMatcher, getCachedResult, setCachedResult"]}
{"id": "C49", "title": "InvalidateCache restores freshness", "statement": "After InvalidateCache the next answer for every request is the one Enforcer would give on the current policy.", "quantifier": "every cached-enforcer history", "why_tests_cant": "All histories.", "anchors": ["casbin/enforcer_cached.cpp: InvalidateCache"]}
{"id": "C50", "title": "Policy changes take effect through the cache", "statement": "After a policy change the cached enforcer no longer answers from results computed under the old policy.", "quantifier": "every history of requests and edits", "why_tests_cant": "All histories.", "anchors": ["casbin/enforcer_cached.cpp"]}
{"id": "C51", "title": "Synced operations never block on themselves", "statement": "No SyncedEnforcer method acquires the policy lock a second time while already holding it.", "quantifier": "every public method and the methods it reaches by virtual dispatch", "why_tests_cant": "Depends on dynamic dispatch for the whole API, not on one scenario.", "anchors": ["casbin/enforcer_synced.cpp", "casbin/management_api.cpp", "casbin/rbac_api.cpp"]}
{"id": "C52", "title": "Synced operations are linearizable", "statement": "Any concurrent execution of SyncedEnforcer operations that complete gives every caller the result it would have got in some sequential order of the same operations.", "quantifier": "every number of threads, every interleaving, every program of operations", "why_tests_cant": "All schedules.", "anchors": ["casbin/enforcer_synced.cpp"]}
{"id": "C53", "title": "Stopping automatic loading terminates", "statement": "StopAutoLoadPolicy returns in finite time under every schedule of the timer thread.", "quantifier": "every interleaving of the stopping thread and the timer loop", "why_tests_cant": "A race visible only in a narrow window.", "anchors": ["casbin/util/ticker.cpp: Ticker::stop, Ticker::timer_loop"]}
{"id": "C54", "title": "No reload after stop", "statement": "Once StopAutoLoadPolicy has returned, no further automatic reload of the policy begins.", "quantifier": "every interleaving", "why_tests_cant": "All schedules.", "anchors": ["casbin/util/ticker.cpp: Ticker::stop", "casbin/enforcer_synced.cpp: StopAutoLoadPolicy"]}
{"id": "C55", "title": "Configuration set/get round trip", "statement": "After Set(section::option, v), Get(section::option) returns v and every other option keeps its value.", "quantifier": "every configuration and key", "why_tests_cant": "All keys, including degenerate ones.", "anchors": ["casbin/config/config.cpp: Config::Set, Config::Get, Config::AddConfig"]}
{"id": "C56", "title": "Configuration text parsing", "statement": "Reading a configuration text gives each option the value of its last assignment in its section; comment and blank lines have no effect; any other line without `=` is rejected.", "quantifier": "every text", "why_tests_cant": "All texts.", "anchors": ["casbin/config/config.cpp: Config::ParseBuffer"]}
{"id": "C57", "title": "A malformed model file does not break later loads", "statement": "After loading a malformed configuration file has thrown, loading another configuration file still works.", "quantifier": "every malformed file and every later load", "why_tests_cant": "Needs a crash history, not one call.", "anchors": ["casbin/config/config.cpp: Config::Parse, Config::mtx_lock"]}
{"id": "C58", "title": "Model loading requires the four sections", "statement": "Loading a model definition succeeds only if request, policy, effect and matcher definitions are present; otherwise the missing-sections exception is thrown.", "quantifier": "every configuration", "why_tests_cant": "All configurations.", "anchors": ["casbin/model/model.cpp: Model::LoadModelFromConfig, LoadSection, AddDef"]}
{"id": "C59", "title": "Definitions can be added in any order", "statement": "Building a model by AddDef gives the same model for every order of the definitions.", "quantifier": "every order of AddDef calls", "why_tests_cant": "All permutations.", "anchors": ["casbin/model/model.cpp: Model::AddDef, IsHashsetUsagePossible"]}
{"id": "C60", "title": "KeyMatch is exact-or-prefix matching", "statement": "KeyMatch(k, pat) is true exactly when pat has no `*` and equals k, or the part of pat before its first `*` is a prefix of k; it is total.", "quantifier": "all strings", "why_tests_cant": "All strings.", "anchors": ["casbin/util/built_in_functions.cpp: KeyMatch"]}
{"id": "C61", "title": "KeyGet returns the wildcard part", "statement": "KeyGet(k, pat) returns what k has beyond the part of pat before `*` when KeyMatch holds via a wildcard, and the empty string otherwise.", "quantifier": "all strings", "why_tests_cant": "All strings.", "anchors": ["casbin/util/built_in_functions.cpp: KeyGet"]}
{"id": "C62", "title": "IPMatch is CIDR containment", "statement": "For every IPv4 address a.b.c.d and block e.f.g.h/n with n <= 32, IPMatch is true exactly when the first n bits agree.", "quantifier": "all 2^32 addresses, all blocks", "why_tests_cant": "2^69 combinations.", "anchors": ["casbin/util/built_in_functions.cpp: IPMatch", "casbin/ip_parser/parser"]}
{"id": "C63", "title": "IPMatch accepts a plain address as pattern", "statement": "IPMatch(ip, ip2) with ip2 a plain address is true exactly when both denote the same address.", "quantifier": "all pairs of addresses", "why_tests_cant": "All strings.", "anchors": ["casbin/util/built_in_functions.cpp: IPMatch", "casbin/ip_parser/parser/parseCIDR.cpp"]}
{"id": "C64", "title": "KeyMatch2 matches path templates segment by segment", "statement": "For path templates made of literal segments and `:name` segments, KeyMatch2(path, template) is true exactly when path has the same number of segments, literals agree and each parameter segment is non-empty.", "quantifier": "all templates and paths over ordinary path characters", "why_tests_cant": "All paths.", "anchors": ["casbin/util/built_in_functions.cpp: KeyMatch2"]}
{"id": "C65", "title": "Split and join are inverse", "statement": "Joining the result of Split(s, d) with d gives back s for every s and non-empty d, and no piece contains d.", "quantifier": "all strings shorter than 2^31 (the bound of the int field counter)", "why_tests_cant": "All strings.", "anchors": ["casbin/util/split.cpp: Split", "casbin/util/join.cpp: Join"]}
{"id": "C66", "title": "Trim removes exactly the surrounding blanks", "statement": "Trim(s) neither starts nor ends with a blank, is what is left of s after deleting only leading and trailing blanks, and is idempotent.", "quantifier": "all strings", "why_tests_cant": "All strings.", "anchors": ["casbin/util/trim.cpp: Trim, LTrim, RTrim"]}
{"id": "C67", "title": "eval() substitution", "statement": "Each eval(x) in a matcher is replaced by the rule text bound to x and everything else in the matcher is unchanged; an eval(x) whose x is unbound and a matcher without eval() are untouched; replaced text is not scanned again.", "quantifier": "all matcher strings and rule texts", "why_tests_cant": "All strings.", "anchors": ["casbin/util/eval.cpp: HasEval, ReplaceEvalWithMap, GetEvalValue"]}
{"id": "C68", "title": "ACL end to end", "statement": "With the basic ACL model, Enforce(sub,obj,act) is true exactly when the rule (sub,obj,act) is stored.", "quantifier": "every policy of three-field rules and every request", "why_tests_cant": "All policies and requests.", "anchors": ["casbin/enforcer.cpp", "casbin/selected_policies.cpp", "examples/basic_model.conf"]}
{"id": "C69", "title": "RBAC end to end", "statement": "With the RBAC model, Enforce(sub,obj,act) is true exactly when some stored rule (s,obj,act) has s equal to sub or reachable from sub through at most ten stored grouping rules.", "quantifier": "every policy and grouping policy, every request", "why_tests_cant": "All graphs and policies.", "anchors": ["casbin/enforcer.cpp", "casbin/rbac/default_role_manager.cpp", "examples/rbac_model.conf"]}
{"id": "C70", "title": "RBAC with domains end to end", "statement": "With the domain RBAC model, a role held in one domain grants nothing in another domain.", "quantifier": "every policy, grouping policy, domain pair and request", "why_tests_cant": "All policies and strings.", "anchors": ["casbin/enforcer.cpp", "casbin/rbac/default_role_manager.cpp", "examples/rbac_with_domains_model.conf"]}
{"id": "C71", "title": "An eval() rule is one operand of the matcher", "statement": "In a matcher `eval(x) && c` the rule text bound to x can only narrow what c allows: the request is never allowed when c is false, whatever the rule text.", "quantifier": "all rule texts", "why_tests_cant": "All strings stored in the policy.", "anchors": ["casbin/util/eval.cpp: ReplaceEvalWithMap", "casbin/enforcer.cpp: Enforcer::m_enforce"]}
{"id": "C72", "title": "A role granted after the first request takes effect", "statement": "When a grouping rule is added after a request has been enforced, the matcher function g sees the new role link in every later request on the same enforcer.", "quantifier": "every enforcer state (with or without adapter), every earlier request, every grouping rule", "why_tests_cant": "Depends on the hidden order of evaluator creation, function registration and role-link building over an unbounded history.", "anchors": ["casbin/enforcer.cpp: Enforcer::m_enforce", "casbin/model/evaluator.cpp: ExprtkEvaluator::LoadGFunction, AddFunction", "casbin/model/assertion.cpp: BuildIncrementalRoleLinks"]}
{"id": "C73", "title": "IPMatch is CIDR containment for IPv6", "statement": "For every IPv6 address (all groups or with an ellipsis) and every IPv6 block with a mask of at most 128 bits, IPMatch is true exactly when the first n bits agree.", "quantifier": "all texts of IPv6 addresses and blocks, all masks", "why_tests_cant": "2^256 pairs of addresses, 129 masks, many texts per address.", "anchors": ["casbin/util/built_in_functions.cpp: IPMatch", "casbin/ip_parser/parser/parseIPv6.cpp", "casbin/ip_parser/parser/IPNet.cpp"]}
{"id": "C74", "title": "IPMatch keeps the address families apart", "statement": "An IPv6 address is in no IPv4 block, and an IPv4 address is in an IPv6 block exactly when the block lies in ::ffff:0:0/96 and the IPv4 block it stands for has the address.", "quantifier": "all addresses and blocks", "why_tests_cant": "All pairs of addresses and blocks.", "anchors": ["casbin/ip_parser/parser/IPNet.cpp: contains, networkNumberAndMask", "casbin/ip_parser/parser/IP.cpp: To4, Mask"]}
{"id": "C75", "title": "IPMatch is safe on every text", "statement": "For any two strings IPMatch returns a Boolean or throws IllegalArgumentException or ParserException; a text that is no address and a mask that is no number or too large are reported as errors; there is no undefined behaviour.", "quantifier": "all pairs of strings", "why_tests_cant": "All strings.", "anchors": ["casbin/util/built_in_functions.cpp: IPMatch", "casbin/ip_parser/parser"]}
{"id": "C76", "title": "KeyMatch3 matches {name} templates", "statement": "For a template with {name} parameters, KeyMatch3(path, template) returns, without throwing, whether the path is the template with each parameter replaced by a non-empty text without '/' (and, with '/*' at the end, any rest of line).", "quantifier": "all paths and all templates of segments joined by '/', each a literal text or one parameter with literal text around it, with or without '/*' at the end; literal characters have no meaning in regular expressions", "why_tests_cant": "All paths and templates.", "anchors": ["casbin/util/built_in_functions.cpp: KeyMatch3"]}
{"id": "C77", "title": "KeyGet2 extracts :name parameters", "statement": "For a template with :name parameters, KeyGet2(path, template, v) is the value the path gives to the first parameter called v; it is empty when there is none or the path does not match.", "quantifier": "all paths, names and all templates of segments joined by '/', each a literal text or one parameter with literal text around it, with or without '/*' at the end; literal characters have no meaning in regular expressions", "why_tests_cant": "All paths and templates; the value has to be the one of the match.", "anchors": ["casbin/util/built_in_functions.cpp: KeyGet2"]}
{"id": "C78", "title": "KeyGet3 extracts {name} parameters", "statement": "For a template with {name} parameters, KeyGet3(path, template, v) is the value the path gives to the first parameter called v; it is empty when there is none or the path does not match.", "quantifier": "all paths, names and all templates of segments joined by '/', each a literal text or one parameter with literal text around it, with or without '/*' at the end; literal characters have no meaning in regular expressions", "why_tests_cant": "All paths and templates; the value has to be the one of the match.", "anchors": ["casbin/util/built_in_functions.cpp: KeyGet3"]}
{"id": "C79", "title": "KeyMatch4 requires equal values of repeated parameters", "statement": "For a template with {name} parameters, KeyMatch4(path, template) returns whether the path is an instance of the template in which parameters of the same name have the same value.", "quantifier": "all paths and templates, with any number of parameters in a segment", "why_tests_cant": "All paths and templates.", "anchors": ["casbin/util/built_in_functions.cpp: KeyMatch4"]}
{"id": "C80", "title": "Literal templates match only themselves", "statement": "A template without parameters and wildcards is matched by itself and by no other path, by KeyMatch2, KeyMatch3 and KeyMatch4.", "quantifier": "all templates and paths", "why_tests_cant": "All pairs of texts.", "anchors": ["casbin/util/built_in_functions.cpp: KeyMatch2, KeyMatch3, KeyMatch4"]}
{"id": "C81", "title": "The argument of eval() names a policy column", "statement": "EscapeAssertion replaces the first dot of every run of letters, digits, dots and blanks by an underscore and changes nothing else; in particular `p.name` becomes the token `p_name` of the policy definition.", "quantifier": "all texts", "why_tests_cant": "the tests try a few fixed texts; which dot of which run is replaced depends on the whole text and on runs broken by any other character", "anchors": ["casbin/util/escape_assertion.cpp: EscapeAssertion", "casbin/enforcer.cpp: Enforcer::m_enforce"]}
{"id": "C82", "title": "Cached map requests keep their names", "statement": "While policy, roles, model and flags do not change, CachedEnforcer answers every request given as a map of names to values exactly as Enforcer would.", "quantifier": "every sequence of map requests, every iteration order of the maps", "why_tests_cant": "All sequences of requests; a wrong answer needs two maps whose values come in the same order under different names.", "anchors": ["casbin/enforcer_cached.cpp: EnforceWithMatcher(const std::string&, const DataMap&)"]}
{"id": "C83", "title": "What a definition adds to the model", "statement": "An accepted AddDef stores under its key a definition without rules whose tokens are the comma-separated names with the key and an underscore in front (request and policy definitions) or whose value is the text without its comment (others), and changes no other definition; a refused one changes no definition.", "quantifier": "every model, section, key and text", "why_tests_cant": "All texts and all models they are added to.", "anchors": ["casbin/model/model.cpp: Model::AddDef", "casbin/util/remove_comments.cpp"]}
{"id": "C84", "title": "From model and policy files to decisions", "statement": "An enforcer constructed from examples/basic_model.conf, rbac_model.conf or rbac_with_domains_model.conf and a policy file grants exactly the requests that the text of the policy file grants: a `p` line for the object and action (and domain) names the subject, or a role the `g` lines give it.", "quantifier": "every policy text and every request", "why_tests_cant": "All policy texts, all layouts of blanks and comments, all requests.", "anchors": ["casbin/enforcer.cpp: constructor, LoadPolicy, m_enforce", "casbin/persist/file_adapter/file_adapter.cpp", "casbin/model/model.cpp", "examples/"]}
{"id": "C85", "title": "A watcher given to a synced enforcer is told of changes", "statement": "After SyncedEnforcer::SetWatcher, every successful policy change while automatic notification is on (and every SavePolicy) calls Update on that watcher, as it does for Enforcer.", "quantifier": "every sequence of calls after SetWatcher", "why_tests_cant": "All histories of calls; the shipped tests never connect a watcher to a synced enforcer.", "anchors": ["casbin/enforcer_synced.cpp: SetWatcher", "include/casbin/enforcer_synced.h: watcher", "casbin/internal_api.cpp", "casbin/enforcer.cpp: SavePolicy"]}
{"id": "C86", "title": "Automatic loading can be started and stopped in any order", "statement": "Every sequence of StartAutoLoadPolicy and StopAutoLoadPolicy calls on a new synchronised enforcer has defined behaviour, and afterwards IsAutoLoadingRunning says whether the last of them was a start.", "quantifier": "every finite sequence of starts and stops", "why_tests_cant": "Tests always start before they stop.", "anchors": ["casbin/enforcer_synced.cpp: StartAutoLoadPolicy, StopAutoLoadPolicy", "include/casbin/enforcer_synced.h: ticker"]}
{"id": "C87", "title": "DeleteRole takes the role away from everybody", "statement": "DeleteRole(role) removes every rule that mentions the role: its grants, the roles granted to it, and its permissions; afterwards nobody has the role; the result says whether there were any; no other rule changes.", "quantifier": "every policy, every role name", "why_tests_cant": "All policies and names; tests delete one role of one small policy.", "anchors": ["casbin/rbac_api.cpp: DeleteRole"]}
{"id": "C88", "title": "DeletePermission removes the permission from every subject", "statement": "DeletePermission(perm) removes exactly the rules that grant the permission, whatever the subject, and says whether there were any.", "quantifier": "every policy, every permission", "why_tests_cant": "All policies, permissions with empty or missing values.", "anchors": ["casbin/rbac_api.cpp: DeletePermission, DeletePermissions"]}
{"id": "C89", "title": "Permissions of a user can be granted, tested and revoked", "statement": "After AddPermissionForUser(u, perm), HasPermissionForUser(u, perm) answers true; after DeletePermissionForUser(u, perm), false; the answers for other users and permissions do not change; the results say whether something changed.", "quantifier": "every policy, user and permission", "why_tests_cant": "All policies and all pairs of permissions.", "anchors": ["casbin/rbac_api.cpp: AddPermissionForUser, DeletePermissionForUser, HasPermissionForUser"]}
{"id": "C90", "title": "AddRolesForUser grants every role of the list", "statement": "AddRolesForUser(u, roles) grants u every role of the list, stores a grouping rule for each, grants nothing else, and says whether any of them is new.", "quantifier": "every policy, user and list of roles", "why_tests_cant": "All lists, including repeated and already granted roles.", "anchors": ["casbin/rbac_api.cpp: AddRolesForUser"]}
{"id": "C91", "title": "Roles in domains can be granted and revoked", "statement": "After AddRoleForUserInDomain(u, r, d), GetRolesForUserInDomain(u, d) lists r; after DeleteRoleForUserInDomain(u, r, d) it does not; the lists of other users and domains do not change.", "quantifier": "every policy with domains, user, role and domain", "why_tests_cant": "All policies and names, including names that look alike after prefixing.", "anchors": ["casbin/rbac_api_with_domains.cpp", "casbin/rbac/default_role_manager.cpp"]}
{"id": "C92", "title": "A filtered load loads the rules that pass the filter", "statement": "LoadFilteredPolicy with a filter adds to the model exactly the rules of the file that have the values the filter asks for, and marks the policy as filtered.", "quantifier": "every file content and filter", "why_tests_cant": "All files and filters.", "anchors": ["casbin/persist/file_adapter/filtered_file_adapter.cpp: LoadFilteredPolicy, filterLine, filterWords"]}
{"id": "C93", "title": "A null filter loads the whole policy", "statement": "LoadFilteredPolicy with a null filter has the effect of LoadPolicy: the same rules, and the policy is not filtered.", "quantifier": "every file content and model", "why_tests_cant": "All files and models.", "anchors": ["casbin/persist/file_adapter/filtered_file_adapter.cpp: LoadFilteredPolicy, loadFilteredPolicyFile"]}
{"id": "C94", "title": "A filtered policy is never saved, an unfiltered one can be", "statement": "SavePolicy of a filtered file adapter throws when the loaded policy is filtered and leaves the file alone; otherwise it writes the policy.", "quantifier": "every sequence of calls of the adapter", "why_tests_cant": "All histories of calls.", "anchors": ["casbin/persist/file_adapter/filtered_file_adapter.cpp: SavePolicy, IsFiltered"]}
{"id": "C95", "title": "Typed configuration values are read as they were written", "statement": "An option set to a text, `true`, the decimal text of an integer, or values separated by commas is read as that text, boolean, integer or list of values by GetString, GetBool, GetInt, GetStrings.", "quantifier": "every configuration, key and value", "why_tests_cant": "All integers and lists.", "anchors": ["casbin/config/config.cpp: GetBool, GetInt, GetString, GetStrings"]}
{"id": "C96", "title": "An adapter reports the edits it does not carry out", "statement": "An incremental call of a built-in adapter either changes its store as asked or throws UnsupportedOperationException and leaves the store alone.", "quantifier": "every adapter state and every incremental call", "why_tests_cant": "All stored texts and calls.", "anchors": ["casbin/persist/string_adapter.cpp", "casbin/persist/file_adapter/file_adapter.cpp", "casbin/persist/file_adapter/batch_file_adapter.cpp"]}
{"id": "C97", "title": "A matcher function is made for the role manager it was asked for", "statement": "Whatever functions were made before by any enforcer of the process, the factory makes a function with the kind, the number of parameters and the role manager of the present call.", "quantifier": "every sequence of earlier calls, every call", "why_tests_cant": "All histories of a pool shared by all enforcers.", "anchors": ["include/casbin/model/exprtk_config.h: ExprtkFunctionFactory::GetExprtkFunction"]}
{"id": "C98", "title": "A matcher is read with the usual ranking of operators", "statement": "A matcher written from an expression, with `||` weaker than `&&`, weaker than comparisons, weaker than arithmetic, operators of a rank grouping to the left, parentheses where needed or wanted and white space where needed, is read as that expression.", "quantifier": "every expression over fields, texts, numbers, calls, operators and groups up to the library's depth, and every spacing", "why_tests_cant": "All expressions and all spacings.", "anchors": ["casbin/model/evaluator.cpp: Eval", "include/casbin/exprtk/exprtk.hpp: lexer, parse_expression, parse_branch"]}
{"id": "C99", "title": "White space in a matcher does not matter", "statement": "Two matchers with the same words, differing in the white space between them, are read alike.", "quantifier": "every expression and every two spacings", "why_tests_cant": "All expressions and spacings.", "anchors": ["casbin/model/evaluator.cpp: Eval", "include/casbin/exprtk/exprtk.hpp: lexer"]}
{"id": "C100", "title": "A quoted text in a matcher stands for its characters", "statement": "The condition `x == \"s\"` holds exactly when the value of the field is s.", "quantifier": "every field, value and text without quotes and backslashes", "why_tests_cant": "All texts.", "anchors": ["casbin/model/evaluator.cpp: Eval", "include/casbin/exprtk/exprtk.hpp: scan_string"]}
{"id": "C101", "title": "A malformed matcher is refused", "statement": "A matcher with a parenthesis or comma too many, or with a missing operator, throws and grants nothing.", "quantifier": "every expression and such mistake", "why_tests_cant": "All expressions and mistakes.", "anchors": ["include/casbin/exprtk/exprtk.hpp: parse_corpus, parse_expression", "casbin/model/evaluator.cpp: Eval"]}
{"id": "C102", "title": "A condition written as matcher means that condition", "statement": "For a matcher built from comparisons of fields and texts, calls of functions, `&&`, `||` and parentheses, a rule satisfies the matcher for a request exactly when the condition holds of their values.", "quantifier": "every condition, every way to write it, every request and rule", "why_tests_cant": "All conditions, spacings and values.", "anchors": ["casbin/model/evaluator.cpp", "include/casbin/exprtk/exprtk.hpp"]}
{"id": "C103", "title": "Allow-override grants exactly what some rule's condition grants", "statement": "With a matcher that is a written condition and the allow-override effect, a request is granted exactly when some rule looked at satisfies the condition.", "quantifier": "every condition, policy and request", "why_tests_cant": "All conditions, policies and requests.", "anchors": ["casbin/enforcer.cpp: m_enforce", "casbin/model/evaluator.cpp"]}
{"id": "C104", "title": "The root model grants what is stored, and everything to root", "statement": "With the model of basic_with_root_model.conf, after any history of edits and requests, a request is granted exactly when it is stored as a rule or its subject is `root`.", "quantifier": "every history and request", "why_tests_cant": "All histories, policies and requests.", "anchors": ["examples/basic_with_root_model.conf", "casbin/enforcer.cpp: m_enforce"]}
{"id": "C105", "title": "The matchers of the example models can be used", "statement": "Every matcher of the models in examples/ is a condition the library reads, over functions that are registered.", "quantifier": "every example model; every request, rule and role manager", "why_tests_cant": "A refused matcher throws for every request; the tests do not ask requests of these models.", "anchors": ["examples/*.conf", "casbin/model/evaluator.cpp: LoadFunctions"]}
{"id": "C106", "title": "A negation is refused, never ignored", "statement": "A matcher consisting of `!` and a written condition throws for every request and rule.", "quantifier": "every condition and every way to write it", "why_tests_cant": "All conditions and spacings.", "anchors": ["include/casbin/exprtk/exprtk.hpp: scan_operator, parse_branch", "casbin/model/evaluator.cpp: Eval"]}
{"id": "C107", "title": "RBAC models with an effect column answer by the stored rules", "statement": "With rbac_with_deny_model.conf a request is granted iff a rule that applies says allow and none says deny; with rbac_with_not_deny_model.conf iff no rule that applies says deny; with priority_model.conf iff the first applying rule that says allow or deny says allow. A rule applies if it is for the object and action and names the subject or one of its roles.", "quantifier": "every initial policy and grouping rules, every history of requests and faithful editing calls, every request", "why_tests_cant": "All policies and histories; the tests use one policy file per model.", "anchors": ["casbin/enforcer.cpp: m_enforce", "casbin/effect/default_effector.cpp: MergeEffects", "examples/rbac_with_deny_model.conf", "examples/rbac_with_not_deny_model.conf", "examples/priority_model.conf"]}
{"id": "C108", "title": "Address rules cover exactly their blocks", "statement": "With ipmatch_model.conf a request from an IPv4 address is granted iff a stored rule for the object and action has a block that contains the address.", "quantifier": "every policy, every history of requests and faithful edits, every IPv4 address, object and action", "why_tests_cant": "All addresses and blocks, and rules about other objects that interfere.", "anchors": ["casbin/enforcer.cpp: m_enforce", "casbin/util/built_in_functions.cpp: IPMatch", "casbin/ip_parser/parser", "examples/ipmatch_model.conf"]}
{"id": "C109", "title": "Path rules cover exactly their paths", "statement": "With keymatch_model.conf (keymatch2_model.conf) a request is granted iff a stored rule of the subject has a path pattern (template) that covers the object and a regular expression that matches the action.", "quantifier": "every policy, every history of requests and faithful edits, every request", "why_tests_cant": "All patterns and paths, and rules of other subjects that interfere.", "anchors": ["casbin/enforcer.cpp: m_enforce", "casbin/util/built_in_functions.cpp: KeyMatch, KeyMatch2, RegexMatch", "examples/keymatch_model.conf", "examples/keymatch2_model.conf"]}
{"id": "C110", "title": "Roles of users and of resources are separate", "statement": "With rbac_with_resource_roles_model.conf a request is granted iff a stored rule for the action names the subject or a role of it by the g rules, and the object or a role of it by the g2 rules.", "quantifier": "every policy and grouping rules of both types, every history of requests and faithful edits, every request", "why_tests_cant": "All role graphs; the tests use disjoint names for users and resources.", "anchors": ["casbin/model/model.cpp: BuildRoleLinks", "casbin/enforcer.cpp: m_enforce, BuildRoleLinks", "examples/rbac_with_resource_roles_model.conf"]}
{"id": "C111", "title": "A request as a map means the same as a list", "statement": "A request given as a map from field names to values is answered and explained like the list of the values in the order of the request definition.", "quantifier": "every consistent enforcer, matcher, map with exactly the fields of the request definition, and iteration order of the map", "why_tests_cant": "All definitions, policies, evaluator states and iteration orders of the map.", "anchors": ["casbin/enforcer.cpp: Enforcer::EnforceExWithMatcher(DataMap)", "casbin/model/evaluator.cpp: PushObjectString, AddIdentifier"]}
{"id": "C112", "title": "An incomplete map grants nothing", "statement": "A request given as a map that lacks a field the matcher mentions, or has an entry that is no field, is not granted and does not crash.", "quantifier": "every history of requests, every map", "why_tests_cant": "What the symbol table still holds from earlier requests decides.", "anchors": ["casbin/enforcer.cpp: Enforcer::EnforceExWithMatcher(DataMap)", "casbin/model/evaluator.cpp: AddIdentifier"]}
{"id": "C113", "title": "Attributes of request objects", "statement": "With abac_model.conf a request is granted exactly when its object has an attribute Owner equal to the subject.", "quantifier": "every request, after every history of edits and requests", "why_tests_cant": "All objects and histories; the existing tests for it are commented out.", "anchors": ["casbin/model/evaluator.cpp: PushObjectJson", "casbin/enforcer.cpp: Enforcer::EnforceExWithMatcher", "examples/abac_model.conf"]}
{"id": "C114", "title": "Further entries of a map do not matter", "statement": "Entries of a request map that are no fields of the request definition and that the matcher does not mention change neither the answer nor the explanation.", "quantifier": "every consistent enforcer, matcher without eval, request map, list of further entries, and iteration order", "why_tests_cant": "All definitions, policies, maps and iteration orders.", "anchors": ["casbin/enforcer.cpp: Enforcer::EnforceExWithMatcher(DataMap)", "casbin/model/evaluator.cpp: PushObjectString, AddIdentifier, requestValues", "casbin/model/exprtk.hpp: ilesscompare"]}
{"id": "C115", "title": "A new model makes a new enforcer", "statement": "After SetModel or LoadModel, whatever was done before, every history of calls is answered as by a new enforcer with that model and the same adapter; with LoadPolicy after it, as by an enforcer constructed from the model and the adapter. Watcher and switches are kept.", "quantifier": "every state of the enforcer, model not used by an enforcer, adapter, and history of calls of the management, RBAC and request methods", "why_tests_cant": "All earlier and later histories: role managers, evaluators and function tables left over from the old model must not show in any answer.", "anchors": ["casbin/enforcer.cpp: Enforcer::SetModel, Enforcer::LoadModel, Enforcer::Initialize, Enforcer::m_enforce", "casbin/model/assertion.cpp: Assertion::BuildRoleLinks", "casbin/model/evaluator.cpp: ExprtkEvaluator::AddFunction"]}
{"id": "C116", "title": "FindAllOccurences", "statement": "FindAllOccurences returns the occurrences of a text found from the left without overlap: every occurrence overlaps a returned one that begins not later, and no list of occurrences without overlap is longer.", "quantifier": "every text and every text searched for", "why_tests_cant": "All texts, including self-overlapping ones, and termination.", "anchors": ["casbin/util/find_all_occurences.cpp: FindAllOccurences"]}
{"id": "C117", "title": "Requests through the caller's evaluator", "statement": "A request through an evaluator of the caller is answered and explained as the enforcer answers the values given last to the columns, whatever was asked through it or done to the enforcer before; and asking through it does not change the enforcer.", "quantifier": "every history of values given, requests through the evaluator with any matcher, edits of the policy and requests as usual, from any state in which the enforcer is ready for requests; any other objects in the program", "why_tests_cant": "The evaluator keeps variables, functions and the compiled expression from one request to the next; all histories of use have to be excluded as a source of wrong answers.", "anchors": ["casbin/enforcer.cpp: Enforcer::Enforce(std::shared_ptr<IEvaluator>), Enforcer::EnforceExWithMatcher, Enforcer::m_enforce", "casbin/model/evaluator.cpp: ExprtkEvaluator::PushObjectString, ExprtkEvaluator::AddFunction, ExprtkEvaluator::Eval"]}
{"id": "C118", "title": "Another role manager", "statement": "After SetRoleManager with a role manager of the same bound and matching function, whatever links it holds, and BuildRoleLinks, every history of calls is answered as after BuildRoleLinks with the old one.", "quantifier": "every enforcer, role manager and history of calls", "why_tests_cant": "All later histories: links of the new role manager's past, of the old one, and pointers to the old one in the model and the evaluator must not show.", "anchors": ["casbin/enforcer.cpp: Enforcer::SetRoleManager, Enforcer::BuildRoleLinks", "casbin/model/assertion.cpp: Assertion::BuildRoleLinks", "casbin/model/evaluator.cpp: ExprtkEvaluator::LoadGFunction, ExprtkEvaluator::AddFunction"]}
{"id": "C119", "title": "A copy of an enforcer is independent", "statement": "What is done through a copy of an enforcer does not show in the answers of the original, and the other way round; a copy that gets a new model and adapter is a new enforcer.", "quantifier": "every program of enforcers, copies and calls in any order", "why_tests_cant": "All interleavings of calls on both; sharing shows only through particular sequences.", "anchors": ["casbin/enforcer_cached.cpp: CachedEnforcer::CachedEnforcer(const CachedEnforcer&), CachedEnforcer::CachedEnforcer(CachedEnforcer&&)", "include/casbin/enforcer.h: class Enforcer", "casbin/enforcer.cpp: Enforcer::SetModel, Enforcer::SetAdapter, Enforcer::Initialize"]}
{"id": "C120", "title": "Enforcers do not affect each other", "statement": "In a program with any number of enforcers, each made from its own model and adapter, every call ends as if its enforcer were the only one in the program, whatever is done with the others in between.", "quantifier": "every program: constructions (also failing ones), calls of all management, RBAC, request and set-up methods, in any order and on any number of enforcers", "why_tests_cant": "All interleavings and numbers of enforcers; non-interference is a statement about all pairs of programs.", "anchors": ["casbin/enforcer.cpp: Enforcer::Enforcer, Enforcer::Initialize, Enforcer::SetModel, Enforcer::SetAdapter, Enforcer::SetWatcher, Enforcer::EnforceExWithMatcher", "casbin/model/assertion.cpp: Assertion::BuildRoleLinks", "include/casbin/enforcer.h: class Enforcer"]}
{"id": "C121", "title": "Emptying the cache takes effect for requests begun later", "statement": "When several threads use a caching enforcer, after a change of the policy and InvalidateCache every request begun later, by any thread, is answered from the new policy.", "quantifier": "every number of threads, every program of each (the next call may depend on the results so far), every interleaving of look-ups, requests, stores, changes and InvalidateCache", "why_tests_cant": "All interleavings; a stale answer comes back only if a request in progress stores it after the map was emptied.", "anchors": ["casbin/enforcer_cached.cpp: CachedEnforcer::EnforceWithMatcher, CachedEnforcer::getCachedResult, CachedEnforcer::setCachedResult, CachedEnforcer::InvalidateCache, CachedEnforcer::EnableCache"]}
{"id": "C122", "title": "IPv6 addresses that end in an IPv4 address", "statement": "An IPv6 address or block whose last 32 bits are written as an IPv4 address is matched by IPMatch as the same address or block in groups: true exactly when the first n bits agree. A block ::ffff:a.b.c.d/n with n at least 96 has exactly the IPv4 addresses of a.b.c.d/(n-96).", "quantifier": "all texts of IPv6 addresses and blocks in either notation, with or without an ellipsis, all masks", "why_tests_cant": "2^256 pairs of addresses, four pairs of notations, 129 masks; the wrong answers need different notations and one of fourteen masks.", "anchors": ["casbin/util/built_in_functions.cpp: IPMatch", "casbin/ip_parser/parser/parseIPv6.cpp", "casbin/ip_parser/parser/IP.cpp", "casbin/ip_parser/parser/IPNet.cpp"]}
{"id": "C123", "title": "IPMatch accepts exactly addresses and blocks", "statement": "IPMatch answers exactly when its first argument is a text of an IPv4 or IPv6 address and its second one a text of a block (address, slash, number of bits within the family's width); it throws one exception for a first argument that is no address and another one for a second one that is no block; a text stands for one address only. Leading zeros are admitted.", "quantifier": "all pairs of texts", "why_tests_cant": "Infinitely many malformed texts; the parser keeps a position, an ellipsis and a rest of the text in a loop with seven exits.", "anchors": ["casbin/ip_parser/parser/parseIP.cpp", "casbin/ip_parser/parser/parseIPv4.cpp", "casbin/ip_parser/parser/parseIPv6.cpp", "casbin/ip_parser/parser/parseCIDR.cpp", "casbin/ip_parser/parser/xtoi.cpp", "casbin/ip_parser/parser/dtoi.cpp", "casbin/util/built_in_functions.cpp: IPMatch"]}
{"id": "C124", "title": "Logging", "statement": "EnableLog decides whether the library logs, and neither EnableLog nor a logger handed to SetLogger changes an answer.", "quantifier": "every history of method calls, EnableLog, SetLogger and constructors with enable_log; every model, policy, matcher and request", "why_tests_cant": "All histories; the tests never hand over a logger that is on, and nothing shows that EnableLog switches a copy.", "anchors": ["include/casbin/log/default_logger.h: DefaultLogger::Print, DefaultLogger::EnableLog", "include/casbin/log/log_util.h: LogUtil::SetLogger, LogUtil::GetLogger, LogUtil::LogPrint", "casbin/logger.cpp", "casbin/enforcer.cpp: Enforcer::EnableLog, Enforcer::m_enforce"]}
{"id": "C125", "title": "The rules are looked at in order", "statement": "A request over at least one rule looks at the rules in the order in which they are stored and stops at the first that settles the answer (a satisfied allowing rule under allow-override, a satisfied denying rule under deny-override and allow-and-deny, a satisfied rule that says allow or deny under priority). The rules behind it are not looked at: whatever is stored there, malformed or not, the answer and the explanation are the same. A rule that has the wrong number of values, or for which the matcher throws, ends the request with that exception exactly when no rule before it settles the request.", "quantifier": "every policy with malformed or failing rules at any positions, every supported effect expression, every request", "why_tests_cant": "The positions of failing, settling and passing rules combine without bound.", "anchors": ["casbin/enforcer.cpp: Enforcer::m_enforce", "casbin/effect/default_effector.cpp: DefaultEffector::MergeEffects"]}
{"id": "C126", "title": "Grouping rules are tested, listed and edited like policy rules", "statement": "HasNamedGroupingPolicy reports whether a rule of the grouping type is stored; GetNamedGroupingPolicy and its filtered form list exactly the stored (matching) rules; adding, adding a batch, removing, removing by filter and updating change the rules of that type in the way named and no others; and where links are built automatically and no call fails, the call answers whether it changed anything and the role links are afterwards exactly those of the stored rules.", "quantifier": "every grouping type, every stored list of rules, every rule, batch and filter, every state with links that agree with the rules", "why_tests_cant": "Rules, role links and notification change together; the tests look at a handful of rules and never at the links of the other rules.", "anchors": ["casbin/management_api.cpp: AddNamedGroupingPolicy, AddNamedGroupingPolicies, RemoveNamedGroupingPolicy, RemoveFilteredNamedGroupingPolicy, UpdateNamedGroupingPolicy, RemoveNamedGroupingPolicies", "casbin/internal_api.cpp"]}
{"id": "C127", "title": "The calls without a type are about the types p and g", "statement": "HasPolicy, GetPolicy, GetFilteredPolicy, AddPolicy, AddPolicies, RemovePolicy, RemovePolicies, RemoveFilteredPolicy, UpdatePolicy and UpdatePolicies test, list and change the rules of type p in the section of policies and no others; the same for the calls with Grouping in their name and type g.", "quantifier": "every stored list of rules, every rule, batch and filter", "why_tests_cant": "All states and arguments; tests use models that have no other type, in which a wrong type or section goes unseen.", "anchors": ["casbin/management_api.cpp"]}
{"id": "C128", "title": "The listings of roles, users and permissions are those of the stored rules", "statement": "GetRolesForUser and GetUsersForRole (with and without domain) list exactly the roles and users of the stored grouping rules, GetUsersForRole throwing only for a role nobody has; GetPermissionsForUser and GetPermissionsForUserInDomain list exactly the stored policy rules of that user (and domain).", "quantifier": "every state whose links agree with its rules, every user, role and domain", "why_tests_cant": "All policies and names; the listings come from the role graph, which any earlier edit may have left out of step.", "anchors": ["casbin/rbac_api.cpp: GetRolesForUser, GetUsersForRole, GetPermissionsForUser", "casbin/rbac_api_with_domains.cpp: GetUsersForRoleInDomain, GetRolesForUserInDomain, GetPermissionsForUserInDomain", "casbin/rbac/default_role_manager.cpp: GetUsers, GetRoles"]}
{"id": "C129", "title": "Batches of requests through the caching enforcer", "statement": "BatchEnforce of a caching enforcer gives the answers that its requests get one by one from the enforcer without the cache, whatever was asked before; BatchEnforceWithMatcher gives the answers of the enforcer as it is, whatever is stored in the cache, and stores nothing.", "quantifier": "every history of requests, every batch, every cache content", "why_tests_cant": "Which overload a batch calls depends on which methods are virtual; only stale or colliding entries show the difference.", "anchors": ["casbin/enforcer.cpp: BatchEnforce, BatchEnforceWithMatcher", "casbin/enforcer_cached.cpp", "include/casbin/enforcer.h"]}
{"id": "C130", "title": "A switch is as it was last set, and does what its name says", "statement": "After any history of calls on an enforcer, each of the switches EnableEnforce, EnableAutoSave, EnableAutoBuildRoleLinks and EnableAutoNotifyWatcher is as the last call that set it has left it (at first on; giving a model switches all on). With saving off no call tells the adapter of a change, with saving on a successful edit tells it exactly one; with notifying off the watcher is told of nothing but SavePolicy, with notifying on of every successful edit; with enforcing off requests are granted; with building off no call makes role links but BuildRoleLinks and BuildIncrementalRoleLinks. After SetAdapter and SetWatcher the new object gets the calls.", "quantifier": "every model and adapter, every history of calls, returning or throwing, every next call", "why_tests_cant": "All histories: a flag that some method sets, resets or forgets to ask shows only after that method was called.", "anchors": ["casbin/enforcer.cpp: EnableEnforce, EnableAutoSave, EnableAutoBuildRoleLinks, EnableAutoNotifyWatcher, SetAdapter, SetWatcher, SetModel, LoadPolicy", "casbin/internal_api.cpp"]}
{"id": "C131", "title": "Addresses, networks and masks are written as texts of themselves", "statement": "The text written for an address that was read from a text is a text of the same address, without needless zeros, and is read back as it; the text of a network is that of the address with the bits behind the prefix cleared; the text of a mask is that of the mask; and two addresses are equal exactly when they are the same address, in whatever notation they were read.", "quantifier": "all texts of IPv4 and IPv6 addresses, all blocks", "why_tests_cant": "There are 2^32 IPv4 addresses with unboundedly many texts each, 33 masks per address, and tests call none of these methods.", "anchors": ["casbin/ip_parser/parser/IP.cpp:49-78", "casbin/ip_parser/parser/IPNet.cpp:10-36", "casbin/ip_parser/parser/CIDRMask.cpp:10-32"]}
{"id": "C132", "title": "The text of a role manager shows its roles", "statement": "The text of a role has its name and those of its own roles, in parentheses when there are several; the text of a role manager lists the texts of all its roles, each once, after any links were added; writing it is always defined.", "quantifier": "all role managers, orders of the container and links", "why_tests_cant": "The text is dropped by the code, so no test can look at it; the order of the container is not fixed; and the undefined case is silent.", "anchors": ["casbin/rbac/default_role_manager.cpp:71-92", "casbin/rbac/default_role_manager.cpp:277-290"]}
{"id": "C133", "title": "Regular expressions match exactly the texts they stand for", "statement": "For a regular expression of characters, `.`, escapes, classes, groups, alternatives and the quantifiers * + ?, RegexMatch answers whether the whole text is one that the expression stands for; an expression with an unmatched parenthesis is refused.", "quantifier": "every expression of these kinds, every way to write it, every text", "why_tests_cant": "Expressions nest without bound and stand for infinitely many texts; tests try nine pairs with one class and one quantifier.", "anchors": ["casbin/util/built_in_functions.cpp: RegexMatch", "examples/keymatch_policy.csv"]}
{"id": "C134", "title": "Numbers with a fraction are read as the nearest float", "statement": "An option written as a number (sign, digits, point, exponent) is read by GetFloat as the float nearest to it, exactly if it is one; larger numbers are never read as smaller ones; text that begins with no number is read as 0.", "quantifier": "every configuration, key, and written number up to the largest float", "why_tests_cant": "Rounding errors show only for texts with many digits near the middle of two floats; tests read one option with two digits.", "anchors": ["casbin/config/config.cpp: GetFloat"]}
{"id": "C135", "title": "Answers depend on the stored rules, not on how they came to be stored", "statement": "Two enforcers with the same definitions that store the same rules, whatever calls brought them there, give every request the same answer and the same explanation.", "quantifier": "every pair of histories of editing calls and requests, and every request", "why_tests_cant": "Each pair of histories that meet in the same rules is one case; a trace left by a rule that was removed shows only for requests nobody thought of.", "anchors": ["casbin/enforcer.cpp: enforce", "casbin/internal_api.cpp", "casbin/management_api.cpp", "casbin/rbac/default_role_manager.cpp"]}
{"id": "C136", "title": "Instances that share a policy file and a watcher agree", "statement": "When an instance of the enforcer changes its policy and saves it to the policy file, every other instance with the same definitions that uses this file and was given a watcher connected with the first one's answers every request from then on as the first one does.", "quantifier": "every set of instances, every sequence of calls on them, and every request", "why_tests_cant": "A test runs one interleaving of calls on a few instances; that a change reaches no instance by itself is a statement about all sequences of calls.", "anchors": ["include/casbin/persist/watcher.h: SetUpdateCallback", "casbin/enforcer.cpp: SetWatcher, SavePolicy, LoadPolicy", "casbin/persist/file_adapter/file_adapter.cpp"]}
{"id": "C137", "title": "A call from Python is the C++ call of the same name", "statement": "Every public method of the C++ class can be called from Python under its name with the values its parameters stand for. The call is that of the C++ method, of the class or of a base class, with these values; its result or exception is that of the method.", "quantifier": "every class of the module, every method name, all argument values and all states", "why_tests_cant": "The module binds some two hundred functions, with overloads and conversions of the arguments; a test calls a few of them with a few values.", "anchors": ["pycasbin/src/main.cpp", "pycasbin/src/py_enforcer.cpp", "pycasbin/src/py_cached_enforcer.cpp", "pycasbin/src/py_synced_enforcer.cpp", "pycasbin/src/py_model.cpp", "pycasbin/src/py_config.cpp", "pycasbin/src/py_adapter.cpp"]}
{"id": "C138", "title": "A call that Python refuses has changed nothing", "statement": "When a call of a method of the module ends with a TypeError or an AttributeError, the C++ objects are as they were before.", "quantifier": "every class of the module, every method name, all argument values and all states", "why_tests_cant": "Whether a refusal comes before or after the C++ function has run depends on the types of the parameters and of the result of each function.", "anchors": ["pycasbin/src/py_model.cpp", "pycasbin/src/py_enforcer.cpp"]}
{"id": "C139", "title": "However an enforcer is made, it answers the same", "statement": "An enforcer made by a constructor, and an object on which the Init method with the same arguments has been called, answer every history of calls in the same way, and LoadModel reads the file of the model they were given. It does not matter whether the model and the rules were given as files or as objects.", "quantifier": "all files, all models and adapters, all earlier states of the object and all histories of calls afterwards", "why_tests_cant": "The constructors and the Init methods load the rules under different conditions, and the state left over from earlier use must not matter.", "anchors": ["casbin/enforcer.cpp: constructors, InitWithFile, InitWithAdapter, InitWithModelAndAdapter, LoadModel", "casbin/model/model.cpp: Model::Model, NewModelFromFile"]}
{"id": "C140", "title": "Who has a permission, asked of the caching enforcer", "statement": "GetImplicitUsersForPermission of a caching enforcer lists the users that the same enforcer without a cache lists, or throws the same exception, whatever was asked before.", "quantifier": "all policies, all histories of requests, all permissions", "why_tests_cant": "The listing asks one virtual Enforce per name, so each name may be answered from the map or by an evaluation; the tests ask a caching enforcer only for single requests.", "anchors": ["casbin/rbac_api.cpp: Enforcer::GetImplicitUsersForPermission", "casbin/enforcer_cached.cpp: CachedEnforcer::Enforce"]}
{"id": "C141", "title": "Which models keep their rules in a set", "statement": "A model without role definitions keeps its rules in a hash set exactly when its matcher grants a request if and only if the request is one of the rules.", "quantifier": "all request definitions, all matchers, all policies and requests", "why_tests_cant": "The test for set storage removes regular expression matches from the text of the matcher; which texts pass depends on all names and on the order of the removals.", "anchors": ["casbin/model/model.cpp: IsHashsetUsagePossible, Model::AddDef"]}
{"id": "C142", "title": "The work of a role search", "statement": "Deciding whether one name inherits another looks at each role at most once.", "quantifier": "all histories of link calls, all hierarchy bounds, all pairs of names", "why_tests_cant": "The cost of a search depends on the shape of the whole role graph; a graph on which the cost is a power of the number of roles is far from any the tests build, and no test measures work.", "anchors": ["casbin/rbac/default_role_manager.cpp: Role::HasRole, DefaultRoleManager::HasLink"]}
{"id": "C143", "title": "Effectors of the user", "statement": "An effector given by the user is asked after each rule, in the order of the rules, with the effects and results of matching of the rules so far, and decides: the request is granted exactly if its first answer other than indeterminate is allow, and explained by the rule it names.", "quantifier": "all effectors, all evaluators that evaluate, all models, policies and requests", "why_tests_cant": "The tests use DefaultEffector only; the claim is about every class derived from Effector, and what it may be told.", "anchors": ["casbin/enforcer.cpp: Enforcer::m_enforce, SetEffector", "include/casbin/effect/effector.h", "casbin/selected_policies.cpp"]}
{"id": "C144", "title": "Evaluators of the user", "statement": "With an evaluator of the user a rule counts exactly if the evaluator finds the matcher true with the fields of the request and of the rule, and a matcher the evaluator refuses (Eval returns false) grants nothing.", "quantifier": "all implementations of IEvaluator, all models, policies and requests", "why_tests_cant": "The tests use ExprtkEvaluator only; the claim is about every class derived from IEvaluator, with any objects of its own.", "anchors": ["casbin/enforcer.cpp: Enforcer::m_enforce, SetEvaluator, Enforce(std::shared_ptr<IEvaluator>)", "include/casbin/model/evaluator.h: IEvaluator"]}
{"id": "C145", "title": "Serving requests does not make an enforcer grow", "statement": "What an enforcer keeps of the requests it has served is bounded by its model: further requests of the same kind do not make it keep more.", "quantifier": "all models, all series of requests with any answers, all expression libraries", "why_tests_cant": "A test makes a handful of requests to an enforcer and looks at answers; that something is left behind by each shows only in a process that has served very many.", "anchors": ["casbin/model/evaluator.cpp: ExprtkEvaluator::AddFunction, LoadFunctions, LoadGFunction, AddIdentifier", "casbin/enforcer.cpp: Enforcer::EnforceExWithMatcher, m_enforce", "include/casbin/model/exprtk_config.h: ExprtkFunctionFactory::GetExprtkFunction"]}
{"id": "C146", "title": "A question changes nothing that is stored", "statement": "A call that asks (a request in any of its forms, a listing of rules, values, roles, users or permissions, a test for a rule or a role) leaves the definitions, rules, role links, adapter, watcher and switches of the enforcer as they are, however it ends, so that no later question is answered differently because of it.", "quantifier": "all enforcers, all finite series of questions with any arguments and any outcomes, all expression libraries, all container orders", "why_tests_cant": "A test asks and looks at the answer; that asking has changed what a later, different question gets shows only for particular pairs of questions and states.", "anchors": ["casbin/rbac/default_role_manager.cpp: HasLink, GetRoles, GetUsers, CreateRole", "casbin/model/model.cpp: GetValuesForFieldInPolicyAllTypes", "casbin/rbac_api.cpp", "casbin/management_api.cpp", "casbin/enforcer.cpp: EnforceExWithMatcher, m_enforce"]}
{"id": "C147", "title": "Copies of a caching enforcer", "statement": "A copy of a caching enforcer answers as the original does; asking, emptying or switching off one of them does not touch the stored answers of the others; one whose map was emptied answers from the rules as they are, whichever of the copies changed them; and an enforcer that was moved from can still be used.", "quantifier": "all worlds of enforcers that share models, adapters, watchers and evaluators in any way, all finite series of copies, moves, requests, calls and emptyings on any of them, all expression libraries, all container orders", "why_tests_cant": "A test copies once and asks once; the copies share model and evaluator but not the map, so a stale or mixed-up answer depends on which of them was asked, changed and emptied in which order.", "anchors": ["casbin/enforcer_cached.cpp: copy and move constructor, EnforceWithMatcher, InvalidateCache", "include/casbin/enforcer_cached.h", "include/casbin/enforcer.h: members"]}
{"id": "C148", "title": "Automatic loads one at a time", "statement": "Automatic loading launches one load at each tick; a load is begun only when the one before it is finished, and a finished load leaves nothing behind.", "quantifier": "all interleavings of the timer, the loads and the thread that stops them, loads of any length, any number of ticks", "why_tests_cant": "A test waits a few ticks with a small policy, where every load ends long before the next tick; slow loads and long runs are what matters.", "anchors": ["casbin/util/ticker.cpp: timer_loop, stop", "include/casbin/util/ticker.h: _futures2", "casbin/enforcer_synced.cpp: StartAutoLoadPolicy"]}
{"id": "C149", "title": "Automatic loading can be started and stopped from any thread", "statement": "StartAutoLoadPolicy and StopAutoLoadPolicy may be called from any threads at any time: no destroyed or missing ticker is used, at most one ticker is left, and it runs if and only if the last call was a start.", "quantifier": "all numbers of threads, all schedules of their calls step by step", "why_tests_cant": "The steps that go wrong lie between the test of the flag and the use of the pointer, a window that a test does not hit.", "anchors": ["casbin/enforcer_synced.cpp: StartAutoLoadPolicy, IsAutoLoadingRunning, StopAutoLoadPolicy", "include/casbin/enforcer_synced.h: autoLoadRunning, ticker", "casbin/util/ticker.cpp: ~Ticker"]}
{"id": "C150", "title": "The rules after any history of edits", "statement": "For every policy type kept in a vector, the stored rules after any history of editing calls, with any rules, batches and filters and however each call ends, are those of a reference list in which a rule is the same as its rearrangements: adding puts rules at the end unless one is there, removing takes the first, an update is a removal followed by an addition, a filter keeps what does not match. The answers of the calls are those of the reference.", "quantifier": "all enforcers, all policy types, all rules (of any length), batches, filters, all lengths of histories, all adapters", "why_tests_cant": "A test runs a few edits with rules that differ clearly; rearranged values, repeated rules in a batch, updates onto stored rules and short rules only interact in long histories.", "anchors": ["casbin/model/model.cpp: AddPolicy .. RemoveFilteredPolicy", "casbin/internal_api.cpp: addPolicy .. updatePolicies", "casbin/management_api.cpp: AddNamedPolicy .. UpdateNamedPolicies", "casbin/util/array_equals.cpp"]}
{"id": "C151", "title": "What a caching enforcer answers, exactly", "statement": "For every history of questions, policy changes, switches of the cache and calls of InvalidateCache: with the cache on, a request is answered as the first request with the same key since the map was last emptied was answered by the enforcer of that time; if no such request was answered, or the cache is off, it is answered by the enforcer as it is now. A batch does what its requests do one by one up to the first exception.", "quantifier": "all enforcers, all requests (lists and maps, any texts, any matcher), all changes of the enforcer, all lengths of histories, all orders of containers", "why_tests_cant": "A test asks a few requests; which earlier answer is given depends on the whole history, on the keys of all requests in it and on which of them raised exceptions.", "anchors": ["casbin/enforcer_cached.cpp: EnforceWithMatcher, getCachedResult, setCachedResult, InvalidateCache, EnableCache", "casbin/enforcer.cpp: BatchEnforce"]}
{"id": "C152", "title": "What the dots, plus signs and wildcards of a path template stand for", "statement": "For a template of characters that stand for themselves, dots, characters followed by '+', wildcards '/*' and parameters, KeyMatch2 and KeyMatch3 return, without throwing, whether the path is made of what the pieces stand for one after the other; a dot stands for any character of a line, a slash included. So a template without parameters and wildcards is matched by itself, and by no other path exactly when it has no dot.", "quantifier": "all paths and all such templates, of any length, with the wildcards and parameters anywhere (a parameter :name up to a slash or the end)", "why_tests_cant": "All paths and all templates; the templates of the tests have no dots.", "anchors": ["casbin/util/built_in_functions.cpp: KeyMatch2, KeyMatch3"]}
{"id": "C153", "title": "Roles with a matching function", "statement": "With a matching function, g(u, r) after BuildRoleLinks is true exactly when r can be reached from u by at most the allowed number of steps, each of which is a grouping rule or a match of a name with a name of a rule; the order in which the rules are stored and the order of the container do not matter.", "quantifier": "all matching functions, all grouping rules with two or three places in one role definition, all names; and all histories of calls on the role manager", "why_tests_cant": "A test has one matching function and a few rules in one order; which matches count depends on where the names stand in all the rules.", "anchors": ["casbin/rbac/default_role_manager.cpp: AddMatchingFunc, HasRole, CreateRole, AddLink, DeleteLink, HasLink, GetRoles", "casbin/model/assertion.cpp: BuildRoleLinks", "casbin/enforcer.cpp: BuildRoleLinks"]}
{"id": "C154", "title": "Editing calls that raise an exception", "statement": "An editing call that raises an exception leaves the rules as they were, so the call can be made again.", "quantifier": "all editing calls of the management API with all arguments, all stored rules (in a vector or a set), all adapters and exceptions; for grouping rules all rules with too few values", "why_tests_cant": "Needs every adapter that can fail at every call; the tests have no adapter that fails.", "anchors": ["casbin/internal_api.cpp: addPolicy ... updatePolicies", "casbin/management_api.cpp: AddNamedGroupingPolicy, RemoveNamedGroupingPolicy, RemoveFilteredNamedGroupingPolicy", "casbin/model/assertion.cpp: BuildIncrementalRoleLinks, BuildRoleLinks", "casbin/enforcer.cpp: LoadPolicy, BuildRoleLinks"]}
{"id": "C155", "title": "Destroying a synced enforcer that loads automatically", "statement": "Destroying a SyncedEnforcer while it loads its policy automatically ends: the destructor returns, no thread of the enforcer is left, and nothing uses a member that has been destroyed.", "quantifier": "all schedules of the owner, the timer loop and the tasks, all numbers of tasks, all starts and stops before the destruction; for the order of destruction all orders of the members", "why_tests_cant": "A race between the destructor, the timer loop and the tasks: a test sees one schedule, and a use after destruction often goes unnoticed.", "anchors": ["include/casbin/enforcer_synced.h: SyncedEnforcer (members and the missing destructor)", "casbin/util/ticker.cpp: Ticker::~Ticker, stop, timer_loop", "include/casbin/enforcer.h: ~Enforcer", "casbin/enforcer_synced.cpp: StartAutoLoadPolicy"]}
{"id": "C156", "title": "The editing calls that name the section keep role links and grouping rules together", "statement": "After addPolicy, removePolicy, removeFilteredPolicy or updatePolicies of the section g has returned, the role links are exactly those of the stored grouping rules.", "quantifier": "all enforcers whose links are those of their grouping rules, all role types of two or three places, all rules and filters", "why_tests_cant": "Whether a link is still wanted depends on all the other stored rules; a test fixes one store.", "anchors": ["casbin/internal_api.cpp: addPolicy, removePolicy, removeFilteredPolicy, updatePolicies", "include/casbin/enforcer.h: 265-271 (public)"]}
{"id": "C157", "title": "Only r, p, e, m and the role definitions take part in a decision", "statement": "Definitions of other request, policy, effect and matcher types (r2, p2, e2, m2), and rules of other policy types, whether loaded or edited, never change an answer, an explanation, or an exception.", "quantifier": "all models agreeing on r, p, e, m and the role definitions, all histories of requests and edits of other policy types, all policies of a text", "why_tests_cant": "The models that agree, the rules and the histories are unbounded; a test has one model with one second type.", "anchors": ["casbin/enforcer.cpp: m_enforce (56-101, 174, 215)", "casbin/persist/adapter.cpp: LoadPolicyLine", "casbin/selected_policies.cpp"]}
{"id": "C158", "title": "A load that succeeds makes up for everything before it", "statement": "After any history of edits, loads, saves and changes of adapter, whatever failed in it, a load that reads rules long enough for their definitions returns, and every request then gets the answer and explanation of an enforcer that did nothing but this load.", "quantifier": "all enforcers with one policy type and any role types, all histories, all adapters, all requests", "why_tests_cant": "What a failed call leaves behind depends on where it stopped; a test fixes one failure and one recovery.", "anchors": ["casbin/enforcer.cpp: Enforcer::LoadPolicy", "casbin/model/model.cpp: Model::ClearPolicy, Model::RemoveFilteredPolicy", "casbin/rbac/default_role_manager.cpp: DefaultRoleManager::Clear"]}
{"id": "C159", "title": "A matcher is compiled when its text changes, and once for a series of requests with one matcher", "statement": "The texts an evaluator compiles are exactly those that differ from the text evaluated before; a series of requests with one matcher without eval( compiles it at most once, whatever the requests are answered.", "quantifier": "all expression libraries, models, series of requests, states of the evaluator", "why_tests_cant": "Compilations cannot be seen from the answers, and the series is unbounded.", "anchors": ["casbin/model/evaluator.cpp: ExprtkEvaluator::Eval", "casbin/enforcer.cpp: Enforcer::m_enforce"]}
{"id": "C160", "title": "A request evaluates the matcher once for each rule it looks at", "statement": "The number of evaluations of the matcher in a request is the number of rules it looks at.", "quantifier": "all expression libraries, models, requests, states of the evaluator", "why_tests_cant": "Evaluations cannot be seen from the answers; their number depends on the values of the matcher on all rules.", "anchors": ["casbin/model/evaluator.cpp: ExprtkEvaluator::CheckType, GetBoolean, GetFloat", "casbin/enforcer.cpp: 143-158"]}
{"id": "C161", "title": "With auto-save on, a store that follows the calls of the adapter holds the rules of the model", "statement": "If a store has the rules of the model and carries out every call that the adapter receives, then after any history of editing calls that return, with auto-save on, it has the rules of the model again; so loading it after a restart gives the enforcer back.", "quantifier": "all histories of editing calls, rules, batches, filters, adapters, policy types", "why_tests_cant": "The divergence depends on the whole history and shows only after a restart; all rules and orders of calls are concerned.", "anchors": ["casbin/internal_api.cpp: Enforcer::addPolicy to updatePolicies", "casbin/persist/adapter.h", "casbin/persist/batch_adapter.h"]}
{"id": "C162", "title": "Enforcers used by different threads get functions of their own role managers", "statement": "When threads make requests to enforcers that share nothing, each request is given matcher functions of the kind it asked for with the role manager of its own enforcer, however the threads are scheduled.", "quantifier": "all numbers of threads, calls of the factory, schedules", "why_tests_cant": "The static pool of the factory is used without a lock; what goes wrong depends on the interleaving of statements of unrelated enforcers.", "anchors": ["include/casbin/model/exprtk_config.h: ExprtkFunctionFactory::GetExprtkFunction", "casbin/model/evaluator.cpp: LoadFunctions, LoadGFunction, AddFunction", "casbin/enforcer.cpp: 52-63"]}
{"id": "C163", "title": "A given effector decides the requests that follow", "statement": "After SetEffector, every request is decided by that effector's answers about the rules that match, whatever calls come in between.", "quantifier": "all effectors, histories of calls, policies and requests", "why_tests_cant": "Which calls silently put the default effector back shows only for an effector that differs from it on the request asked; the tests never set one.", "anchors": ["casbin/enforcer.cpp: SetEffector 417-419, Initialize 340-352, 174, 215", "casbin/enforcer.cpp: SetModel, LoadModel"]}
{"id": "C164", "title": "Clean makes an evaluator as good as new", "statement": "After ExprtkEvaluator::Clean, a request with that evaluator is answered as with a new evaluator, whatever the evaluator was used for before.", "quantifier": "all evaluator states, models, matchers, policies, request values", "why_tests_cant": "Clean leaves pointers to destroyed functions in a part of exprtk's symbol table; whether their use shows depends on memory reuse, and no test cleans an evaluator.", "anchors": ["casbin/model/evaluator.cpp: Clean 111-121, AddFunction 123-128, Eval 23-41", "include/casbin/exprtk/exprtk.hpp: 20513-20516, 20535-20543, 20835-20862, 20133-20175", "casbin/enforcer.cpp: 52-63, 537-541, 582-584"]}
{"id": "C165", "title": "An evaluator used directly", "statement": "A program that enters identifiers and functions into an ExprtkEvaluator and gives it a text gets yes from Eval exactly when the text is an expression over what was entered, and then GetBoolean is its value under the values given last.", "quantifier": "all sequences of AddIdentifier, AddFunction, LoadFunctions, LoadGFunction, Eval and GetBoolean calls, all texts, all role managers", "why_tests_cant": "Each test makes a new evaluator and evaluates one text once; what is remembered between calls never shows.", "anchors": ["casbin/model/evaluator.cpp: Eval 23-41, GetBoolean 98-100, AddFunction 123-128, AddIdentifier 158-164", "include/casbin/exprtk/exprtk.hpp: 444-459, 20387-20390, 20798-20862, 21191-21214", "tests/built_in_functions_test.cpp: 24-34"]}
{"id": "C166", "title": "A change of the rules reaches only the requests it is about", "statement": "With the RBAC model, a call that changes the answer to a request is about a policy rule for that object and action and a subject that the asking one is or has as a role, or about a grouping rule for someone that the asking one is or has as a role; putting rules in takes no permission away and taking rules out gives none.", "quantifier": "all histories of editing calls, requests, loads and saves after which the links are those of the rules, all calls, all requests", "why_tests_cant": "A test asks a few users before and after a change; that nobody else is affected is a statement about all subjects, objects, actions and role graphs.", "anchors": ["casbin/management_api.cpp: 134-337", "casbin/internal_api.cpp: 32-200", "casbin/enforcer.cpp: m_enforce 42-240", "casbin/model/model.cpp: 267-425"]}
{"id": "C167", "title": "What is edited in one domain does not reach another", "statement": "With the RBAC model with domains, however many policy and grouping rules of other domains are added, changed or removed, every answer to a request in this domain stays; a call that changes an answer is about a rule of the request's own domain, for a subject that the asking one is or has as a role there.", "quantifier": "all histories of editing calls that keep links and rules together, all rules, all requests with a domain without colon", "why_tests_cant": "Isolation of tenants is about all histories in all other domains and all requests in one; a test compares a few requests after a few edits.", "anchors": ["casbin/management_api.cpp: 134-337", "casbin/internal_api.cpp: 32-200", "casbin/rbac/default_role_manager.cpp: AddLink, HasLink", "examples/rbac_with_domains_model.conf"]}
{"id": "C168", "title": "GetString answers with the string the text gets", "statement": "After EnableGet, and after identifiers and functions were entered, a text that assigns to the variable of EnableGet makes GetString answer with the value of the right side under the values given last, and it does so again when asked again.", "quantifier": "all histories of calls on an evaluator (identifiers, functions, EnableGet, Eval, GetBoolean, GetString), all texts and values", "why_tests_cant": "The tests enter two or three keys once and ask once; the property is about every history, in which names meet, texts are refused and values change after the text was compiled.", "anchors": ["casbin/model/evaluator.cpp: 23-41, 47-54, 98-109, 158-164", "include/casbin/model/exprtk_config.h: 161-228", "tests/built_in_functions_test.cpp: 48-60, 118-131, 208-219"]}
{"id": "C169", "title": "Rules kept in a set, after any history of edits", "statement": "For every policy type whose rules are kept in a set, the rules after any history of editing calls, and the answers of the calls, are those of a vector with the same rules, and do not depend on the order in which the set is walked through.", "quantifier": "all enforcers, all policy types, all rules, batches, filters, all lengths of histories, all adapters, all orders of iteration", "why_tests_cant": "A test runs with the one order its standard library has, on a few rules; that the order never shows, and that a removal by a filter, which turns the set into a vector, makes no difference later, is about all orders and histories.", "anchors": ["casbin/model/policy_collection.cpp: createWithHashset, emplace, erase", "casbin/model/model.cpp: 126, 132, AddPolicy .. RemoveFilteredPolicy", "casbin/internal_api.cpp: addPolicy .. updatePolicies", "casbin/util/array_equals.cpp"]}
{"id": "C170", "title": "What is taken away is not granted any more", "statement": "After DeleteUser no request of the user is granted; after DeleteRolesForUser only what their own rules grant; after DeletePermissionsForUser nothing by a rule of theirs; after DeleteRole nothing by way of the role; after DeletePermission nobody is granted it; after DeletePermissionForUser and DeleteRoleForUser (InDomain) nothing by that rule. Everything else is granted as before.", "quantifier": "all policies and roles of the RBAC models without and with domains, after all faithful histories of calls, all users, roles, permissions, requests, all sound expression libraries, all orders of iteration", "why_tests_cant": "A test deletes one user of one policy and asks a few requests; whether some other way through the roles still grants is a question about all role graphs and all requests.", "anchors": ["casbin/rbac_api.cpp: DeleteRoleForUser .. DeletePermissionsForUser", "casbin/rbac_api_with_domains.cpp: DeleteRoleForUserInDomain", "casbin/management_api.cpp: RemoveFilteredNamedGroupingPolicy", "casbin/enforcer.cpp: m_enforce"]}
{"id": "C171", "title": "A matching function that raises an exception", "statement": "With a matching function that may raise an exception every call on the role manager either does what it does with a function that always answers, or raises an exception of that function; a call that raises leaves the names and links as they were, and other questions are answered as before.", "quantifier": "all matching functions, which may raise on any pairs of names, all roles entered, all names and domains, all orders of iteration, all later calls", "why_tests_cant": "The tests use matching functions on well-formed patterns only; what one malformed pattern does to later questions about other names depends on every later call.", "anchors": ["casbin/rbac/default_role_manager.cpp: HasRole, CreateRole, AddLink, DeleteLink, HasLink, GetRoles, GetUsers", "casbin/util/built_in_functions.cpp: KeyMatch4, RegexMatch"]}
{"id": "C172", "title": "No undefined behaviour", "statement": "From the constructor on, no history of calls of an enforcer, with any names, rules, filters, requests and matchers, has undefined behaviour: no null pointer is dereferenced, no vector is read beyond its end, no destroyed object is used; also not after calls that raised exceptions.", "quantifier": "all histories of calls of any length, all models, policies, adapters, watchers, matchers, requests, matching functions, all expression libraries without undefined behaviour of their own, all orders of iteration", "why_tests_cant": "Undefined behaviour need not show in a test that runs into it, and which call runs into it depends on the rules, links and adapter that all earlier calls left.", "anchors": ["casbin/enforcer.cpp: constructors, LoadPolicy, SavePolicy, BuildRoleLinks, m_enforce, Enforce", "casbin/internal_api.cpp: addPolicy .. removeFilteredPolicy", "casbin/management_api.cpp", "casbin/rbac_api.cpp", "casbin/model/model.cpp", "casbin/persist/adapter.cpp: LoadPolicyLine", "casbin/rbac/default_role_manager.cpp"]}
{"id": "C173", "title": "Names are only told apart", "statement": "If users, roles, domains, objects and actions are given other names, different names to different ones, then the same history of editing calls with the new names gets the same answers, leaves the same rules with the new names, and every request with the new names is decided as the one with the old names was.", "quantifier": "all one-to-one changes of names, all policies and roles, all histories of editing calls, all requests, all sound expression libraries, all orders of iteration", "why_tests_cant": "A test uses one set of names; that no name is treated specially is a statement about all of them.", "anchors": ["casbin/model/model.cpp: HasPolicy, AddPolicy, RemovePolicy, RemoveFilteredPolicy, UpdatePolicy", "casbin/rbac/default_role_manager.cpp: AddLink, HasLink", "casbin/util/array_equals.cpp", "casbin/enforcer.cpp: m_enforce"]}
{"id": "C174", "title": "Calls about different rules can be made in either order", "statement": "Two editing calls (adding, removing, removing by a filter or updating rules) that are about different rules leave the same rules whichever is made first, each answers as it would have answered without the other, and every request is then decided alike.", "quantifier": "all pairs of editing calls, all stored rules, all adapters, all requests, all sound expression libraries, all orders of iteration", "why_tests_cant": "A test makes two given calls on one policy; independence is about all pairs of calls on all policies.", "anchors": ["casbin/model/model.cpp: HasPolicy, AddPolicy, AddPolicies, RemovePolicy, RemoveFilteredPolicy, UpdatePolicy, UpdatePolicies", "casbin/internal_api.cpp", "casbin/util/array_equals.cpp"]}
{"id": "C175", "title": "An editing call can be retried", "statement": "Making an editing call (adding, removing, removing by a filter or updating rules) a second time leaves the rules and the decisions that making it once leaves, also when the first call ended in an exception.", "quantifier": "all editing calls, all stored rules, all adapters, all requests, all sound expression libraries, all orders of iteration", "why_tests_cant": "A test repeats a given call on one policy; that a retry is safe is about every call on every policy and every way the adapter may fail.", "anchors": ["casbin/model/model.cpp: HasPolicy, AddPolicy, AddPolicies, RemovePolicy, RemoveFilteredPolicy, UpdatePolicy, UpdatePolicies", "casbin/internal_api.cpp", "casbin/util/array_equals.cpp"]}
{"id": "C176", "title": "An editing call can be undone", "statement": "After an editing call that returned true and the call that is its inverse (add and remove, update and update back, in batches too), the rules of every policy type are those of before, up to their order, and every request is decided as before.", "quantifier": "all editing calls with an inverse, all stored rules, all adapters, all requests, all sound expression libraries, all orders of iteration", "why_tests_cant": "A test undoes a given call on one policy; undoing is about every call on every policy.", "anchors": ["casbin/model/model.cpp: HasPolicy, AddPolicy, AddPolicies, RemovePolicy, RemoveFilteredPolicy, UpdatePolicy, UpdatePolicies", "casbin/internal_api.cpp", "casbin/util/array_equals.cpp"]}
{"id": "C177", "title": "A synchronised enforcer asks an evaluator of the caller", "statement": "A request to a synchronised enforcer through an evaluator of the caller is answered and explained as by the enforcer it extends, leaves the enforcer as it was and the lock free, also after an exception and also when the evaluator itself asks the enforcer.", "quantifier": "all evaluators, all matchers, all enforcers, all questions the evaluator may ask, all orders of iteration", "why_tests_cant": "A test uses one evaluator; the claim is about every implementation of IEvaluator, and a request that waits for itself does not return to be checked.", "anchors": ["casbin/enforcer_synced.cpp: Enforce, SyncedEnforceEx, SyncedEnforceExWithMatcher, SyncedEnforceWithMatcher (184, 529, 550, 571, 586)", "casbin/enforcer.cpp: m_enforce, EnforceExWithMatcher", "include/casbin/model/evaluator.h: IEvaluator"]}
{"id": "C178", "title": "What a new role or a new permission gives", "statement": "Giving a user a role gives nobody more than the role was granted (in the model with domains: only in the domain it is given for), and gives the user all the role was granted. Giving a role a permission gives it to exactly those who have the role, and nothing else to anybody.", "quantifier": "all stored rules and grouping rules, all users, roles, domains, requests, adapters, all sound expression libraries, all orders of iteration", "why_tests_cant": "A test asks some requests after one grant; that nobody gains more is about all subjects, all requests and every graph of roles.", "anchors": ["casbin/rbac_api.cpp: AddRoleForUser, AddPermissionForUser", "casbin/management_api.cpp: AddGroupingPolicy, AddPolicy", "casbin/internal_api.cpp: addPolicy", "casbin/rbac/default_role_manager.cpp: HasLink, AddLink"]}
{"id": "C179", "title": "A malformed model file does no harm to the rest of the program", "statement": "In a program that makes and uses several enforcers, a model file that cannot be parsed makes the call that reads it fail, and every other call, of any enforcer, ends as it would had that file not been read.", "quantifier": "all histories of constructors, Init methods, LoadModel, methods of any enforcer, models from text and configuration calls; all files, which may be others each time", "why_tests_cant": "What breaks is shared by the whole program and shows only in a later call of somebody else; a test makes one enforcer from one good file.", "anchors": ["casbin/config/config.cpp: Config::Parse, Config::Set, Config::mtx_lock", "casbin/model/model.cpp: LoadModel, NewModelFromFile", "casbin/enforcer.cpp: constructors, InitWithFile, InitWithAdapter, LoadModel"]}
{"id": "C180", "title": "Threads that read model files do not keep others waiting for ever", "statement": "When several threads make enforcers or models from files, load the model of a synchronised enforcer and use it, every thread gets all its calls done, whatever the files contain and in whatever order the threads go on.", "quantifier": "all numbers of threads, all lists of calls of each, all interleavings of their steps", "why_tests_cant": "It is about all schedules, and what goes wrong shows only in a thread that has read no file.", "anchors": ["casbin/config/config.cpp: Config::Parse, Config::mtx_lock", "casbin/enforcer_synced.cpp: LoadModel, policyMutex"]}
{"id": "C181", "title": "Every call of a synchronised enforcer gets its turn", "statement": "When threads call a synchronised enforcer over and over and no thread that can go on again and again is passed over for ever, every thread gets all its calls done.", "quantifier": "all numbers of threads, all endless programs of calls, all fair executions", "why_tests_cant": "It is about executions without end; any finite number of waits is allowed.", "anchors": ["include/casbin/enforcer_synced.h: policyMutex", "casbin/enforcer_synced.cpp: every unique_lock and shared_lock"]}
{"id": "C182", "title": "A Python program makes the enforcer it asks for", "statement": "Enforcer(...) in Python calls the C++ constructor for the arguments given, with these arguments; arguments that no constructor is meant for are a TypeError and make nothing.", "quantifier": "all lists of Python values as arguments", "why_tests_cant": "The choice among seven overloads, in two passes, depends on the types of all arguments; the tests use two of them.", "anchors": ["pycasbin/src/py_enforcer.cpp: py::init", "casbin/enforcer.cpp: Enforcer::Enforcer"]}
{"id": "C183", "title": "Editing rules leaves the definitions alone", "statement": "After any history of defined editing calls (adding, removing and updating rules, one or many, by filter), whether they return or throw, every section of the model has the policy types it had, in the same order, each with the same key, value and tokens.", "quantifier": "all enforcers and all histories of editing calls", "why_tests_cant": "It speaks of every history and of calls that throw half-way; the tests look at the rules after a few calls that return.", "anchors": ["casbin/model/model.cpp: Model::AddPolicy", "casbin/internal_api.cpp: Enforcer::addPolicy", "casbin/model/assertion.cpp: Assertion::BuildIncrementalRoleLinks"]}
