import Verif.Base
import Verif.Effect
import Verif.EffectLemmas
import Verif.Util
import Verif.RoleManager
import Verif.RoleManagerLemmas
import Verif.Model
import Verif.ModelLemmas
import Verif.EvalSub
import Verif.Evaluator
import Verif.Enforce
import Verif.Adapter
import Verif.Enforcer
import Verif.EnforcerLemmas
import Verif.EditLemmas
import Verif.Fixtures
import Verif.Props.Strings
import Verif.Props.Roles
import Verif.Props.Policy
import Verif.Props.Notify
import Verif.DecisionSpec
import Verif.DecisionLemmas
import Verif.DecisionRun
import Verif.EffectDecide
import Verif.DecisionMain
import Verif.MiniLib
import Verif.Props.Decision
import Verif.DecisionEdit
import Verif.Props.Requests
import Verif.ImplicitLemmas
import Verif.LinkLemmas
import Verif.MirrorLemmas
import Verif.Props.Links
import Verif.StableLemmas
import Verif.EndToEndLemmas
import Verif.Props.EndToEnd
import Verif.ModelDef
import Verif.ConfigLemmas
import Verif.Props.Config
import Verif.HashLemmas
import Verif.Props.Hash
import Verif.Builtins
import Verif.BuiltinsLemmas
import Verif.IPv6Lemmas
import Verif.Props.Builtins
import Verif.KeyPatterns
import Verif.KeyPatternLemmas
import Verif.Props.KeyPatterns
import Verif.RbacLemmas
import Verif.Props.RbacApi
import Verif.EvalSubLemmas
import Verif.Props.EvalSub
import Verif.AdapterLemmas
import Verif.Props.Adapters
import Verif.Cached
import Verif.Props.Cached
import Verif.Props.Definitions
import Verif.Synced
import Verif.Props.Synced
import Verif.Threads
import Verif.SectionLemmas
import Verif.Props.Linear
import Verif.Bodies
import Verif.Props.Concurrent
import Verif.Ticker
import Verif.Props.Ticker
import Verif.Props.Permissions
import Verif.Filtered
import Verif.Props.Filtered
import Verif.Getters
import Verif.Props.Getters
import Verif.Exprtk
import Verif.ExprtkSpec
import Verif.ExprtkParse
import Verif.ExprtkAssemble
import Verif.ExprtkLex
import Verif.StdLib
import Verif.Conditions
import Verif.ConditionLemmas
import Verif.ConditionFixtures
import Verif.Factory
import Verif.Props.Exprtk
import Verif.Props.Matchers
import Verif.ExampleLemmas
import Verif.Props.Examples
import Verif.Props.ResourceRoles
import Verif.MapLemmas
import Verif.Props.Maps
import Verif.Props.Extras
import Verif.Props.NewModel
import Verif.Props.Find
import Verif.Props.Worlds
import Verif.Props.Managers
import Verif.Props.Callers
import Verif.CachedThreads
import Verif.Props.CachedThreads
import Verif.IPv6Dotted
import Verif.Props.IPv6Dotted
import Verif.IPTexts
import Verif.Props.IPTexts
import Verif.Logging
import Verif.Props.Logging
import Verif.InOrder
import Verif.Props.InOrder
import Verif.Props.PolicyTexts
import Verif.Props.Grouping
import Verif.Props.Listings
import Verif.Props.CachedBatch
import Verif.Props.Switches
import Verif.Props.Malformed
import Verif.Props.AnyLength
import Verif.Props.AnyRule
import Verif.Props.Printing
import Verif.Props.Regex
import Verif.Props.Floats
import Verif.Props.History
import Verif.Props.Sharing
import Verif.Python
import Verif.PythonCalls
import Verif.Props.Python
import Verif.Making
import Verif.Props.Making
import Verif.Props.CachedUsers
import Verif.SetStorageLemmas
import Verif.SetStorageText
import Verif.Props.SetStorage
import Verif.RoleCost
import Verif.RoleCostLemmas
import Verif.Props.RoleCost
import Verif.Custom
import Verif.CustomLemmas
import Verif.CustomRun
import Verif.CustomAgree
import Verif.Props.Custom
import Verif.Growth
import Verif.GrowthLemmas
import Verif.Props.Growth
import Verif.QuestionLemmas
import Verif.Props.Questions
import Verif.CachedWorld
import Verif.Props.CachedWorlds
import Verif.AutoThreads
import Verif.Props.AutoLoads
import Verif.Props.AutoThreads
import Verif.Index
import Verif.Props.Store
import Verif.Props.CachedExact
import Verif.KeyDotLemmas
import Verif.Props.KeyDots
import Verif.PatternLemmas
import Verif.Props.PatternRoles
import Verif.Props.Exceptions
import Verif.Destroy
import Verif.Props.Destroy
import Verif.Props.Sections
import Verif.Props.OtherTypes
import Verif.Props.Recover
import Verif.Props.Effort
import Verif.Props.Replica
import Verif.Props.Edges
import Verif.FactoryThreads
import Verif.Props.FactoryThreads
import Verif.Props.ConfigExact
import Verif.Effectors
import Verif.EffectorLemmas
import Verif.Props.Effectors
import Verif.Cleaning
import Verif.CleaningLemmas
import Verif.Props.Cleaning
import Verif.Direct
import Verif.DirectLemmas
import Verif.Props.Direct
import Verif.Props.Locality
import Verif.Props.Tenants
import Verif.Props.Getting
import Verif.Props.SetStore
import Verif.Props.Revoke
import Verif.RoleRaise
import Verif.Props.RoleRaise
import Verif.SafeLemmas
import Verif.SafeModel
import Verif.SafeRequest
import Verif.SafeCalls
import Verif.Props.NoUb
import Verif.Props.Renaming
import Verif.Props.Commute
import Verif.Props.NoUbCached
import Verif.Props.NoUbSynced
import Verif.Props.Retry
import Verif.Props.RetrySet
import Verif.SyncedEval
import Verif.Props.SyncedEval
import Verif.Props.Gains
import Verif.Props.Process
import Verif.Props.ConfigThreads
import Verif.Props.EscapeLoop
import Verif.Props.Starving
import Verif.TypeLemmas
import Verif.Props.RenamingLists
import Verif.Props.PythonMaking
import Verif.Props.Defined
