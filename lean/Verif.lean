import Verif.Py.Basic
import Verif.Py.Ensures
import Verif.Py.Float
import Verif.Py.Free
import Verif.Py.List
import Verif.Py.Num
import Verif.Py.Random
import Verif.Py.Reach
import Verif.Py.Rel
import Verif.Py.Sim
import Verif.Py.SimOn
import Verif.Py.Sort
import Verif.Py.Tri
import Verif.Py.Wp
import Verif.Model.Classification
import Verif.Model.Classifier
import Verif.Model.Construction
import Verif.Model.Counted
import Verif.Model.Creation
import Verif.Model.CreatorObjects
import Verif.Model.Dtypes
import Verif.Model.Evolution
import Verif.Model.Examples
import Verif.Model.FPSelection
import Verif.Model.Failable
import Verif.Model.FloatClassify
import Verif.Model.FloatFit
import Verif.Model.GPOperators
import Verif.Model.Identity
import Verif.Model.Individual
import Verif.Model.Library
import Verif.Model.Matrix
import Verif.Model.Membership
import Verif.Model.MooCheckers
import Verif.Model.MooCounted
import Verif.Model.MooSubmit
import Verif.Model.MutationSteps
import Verif.Model.NSGA2
import Verif.Model.NSGA2Evolution
import Verif.Model.NSGA2Library
import Verif.Model.NSGA2Plot
import Verif.Model.Node
import Verif.Model.Notify
import Verif.Model.Operator
import Verif.Model.Parameters
import Verif.Model.Pickle
import Verif.Model.Primitives
import Verif.Model.Printing
import Verif.Model.Processes
import Verif.Model.Publisher
import Verif.Model.Regression
import Verif.Model.Reports
import Verif.Model.Score
import Verif.Model.Selection
import Verif.Model.Sharing
import Verif.Model.Statistics
import Verif.Model.Subpopulation
import Verif.Model.SymbolicRegression
import Verif.Model.Termination
import Verif.Model.Told
import Verif.Model.Tree
import Verif.Model.TypedMultiplexer
import Verif.Model.Vector
import Verif.Spec.Complete
import Verif.Spec.Creation
import Verif.Spec.Deepening
import Verif.Spec.Descent
import Verif.Spec.Evolution
import Verif.Spec.Exchange
import Verif.Spec.Fitness
import Verif.Spec.History
import Verif.Spec.Ingredients
import Verif.Spec.Legal
import Verif.Spec.Library
import Verif.Spec.Lineage
import Verif.Spec.MooLibrary
import Verif.Spec.MooTotal
import Verif.Spec.Mutation
import Verif.Spec.Partial
import Verif.Spec.Positions
import Verif.Spec.Printing
import Verif.Spec.Prog
import Verif.Spec.Reloc
import Verif.Spec.Run
import Verif.Spec.Selection
import Verif.Spec.Total
import Verif.Spec.TypedRun
import Verif.Spec.Vector
import Verif.Lemmas.AddTree
import Verif.Lemmas.Ageless
import Verif.Lemmas.Breeder
import Verif.Lemmas.Cells
import Verif.Lemmas.Coordinates
import Verif.Lemmas.Course
import Verif.Lemmas.Creation
import Verif.Lemmas.Creators
import Verif.Lemmas.Crossover
import Verif.Lemmas.Crowding
import Verif.Lemmas.Depth
import Verif.Lemmas.Descent
import Verif.Lemmas.EvalLog
import Verif.Lemmas.Evaluator
import Verif.Lemmas.Free
import Verif.Lemmas.FreeGP
import Verif.Lemmas.Fronts
import Verif.Lemmas.History
import Verif.Lemmas.Labels
import Verif.Lemmas.Legal
import Verif.Lemmas.Lineage
import Verif.Lemmas.LineageRun
import Verif.Lemmas.MooKeep
import Verif.Lemmas.MooProgress
import Verif.Lemmas.MooRepresent
import Verif.Lemmas.MooRun
import Verif.Lemmas.MooTotal
import Verif.Lemmas.MooTruthful
import Verif.Lemmas.MooUnstuck
import Verif.Lemmas.Mutation
import Verif.Lemmas.MutationSteps
import Verif.Lemmas.Operator
import Verif.Lemmas.Printing
import Verif.Lemmas.Prog
import Verif.Lemmas.Reloc
import Verif.Lemmas.Renaming
import Verif.Lemmas.Represent
import Verif.Lemmas.Rescale
import Verif.Lemmas.Rounds
import Verif.Lemmas.Run
import Verif.Lemmas.Selection
import Verif.Lemmas.SortFitness
import Verif.Lemmas.Stages
import Verif.Lemmas.Steady
import Verif.Lemmas.Subtree
import Verif.Lemmas.Tamed
import Verif.Lemmas.Total
import Verif.Lemmas.Tournaments
import Verif.Lemmas.Tree
import Verif.Lemmas.Typing
import Verif.Lemmas.Units
import Verif.Lemmas.Unstuck
import Verif.Lemmas.VecCrossover
import Verif.Lemmas.VecMutation
import Verif.Lemmas.World
import Verif.Props.Again
import Verif.Props.Applied
import Verif.Props.BasicMoo
import Verif.Props.Blame
import Verif.Props.Breeder
import Verif.Props.Budget
import Verif.Props.Chance
import Verif.Props.Checkers
import Verif.Props.Classification
import Verif.Props.Classifier
import Verif.Props.Complete
import Verif.Props.CompleteVec
import Verif.Props.Construction
import Verif.Props.Coordinates
import Verif.Props.CreatorObjects
import Verif.Props.Deepening
import Verif.Props.Dtypes
import Verif.Props.ErcBuiltin
import Verif.Props.Evaluator
import Verif.Props.FPSelection
import Verif.Props.FPUnits
import Verif.Props.Failable
import Verif.Props.FitTarget
import Verif.Props.Fitness
import Verif.Props.FloatClassify
import Verif.Props.FloatFit
import Verif.Props.FloatOneMax
import Verif.Props.Functions
import Verif.Props.GACrossover
import Verif.Props.GAMutation
import Verif.Props.GPCreators
import Verif.Props.GPCrossover
import Verif.Props.GPExec
import Verif.Props.GPMutation
import Verif.Props.GPTree
import Verif.Props.GenBest
import Verif.Props.Generations
import Verif.Props.GrowOdds
import Verif.Props.History
import Verif.Props.Identity
import Verif.Props.Ingredients
import Verif.Props.Knapsack
import Verif.Props.Labels
import Verif.Props.Legal
import Verif.Props.Lineage
import Verif.Props.Methods
import Verif.Props.MooAgain
import Verif.Props.MooArchive
import Verif.Props.MooBlame
import Verif.Props.MooBudget
import Verif.Props.MooCourse
import Verif.Props.MooElites
import Verif.Props.MooLottery
import Verif.Props.MooOperators
import Verif.Props.MooParents
import Verif.Props.MooPlot
import Verif.Props.MooProgress
import Verif.Props.MooRecombination
import Verif.Props.MooRenamed
import Verif.Props.MooReproducible
import Verif.Props.MooRetry
import Verif.Props.MooSeeds
import Verif.Props.MooSeveral
import Verif.Props.MooShorter
import Verif.Props.MooStagnation
import Verif.Props.MooSubmit
import Verif.Props.MooTotal
import Verif.Props.MooTruthful
import Verif.Props.MooUnstuck
import Verif.Props.Multiplexer
import Verif.Props.MutationObjects
import Verif.Props.NSGA2Construction
import Verif.Props.NSGA2Evolution
import Verif.Props.NSGA2Fitness
import Verif.Props.NSGA2Sorting
import Verif.Props.NSGA2Statistics
import Verif.Props.NSGA2Values
import Verif.Props.Names
import Verif.Props.NanFront
import Verif.Props.NotANumber
import Verif.Props.Notify
import Verif.Props.Objective
import Verif.Props.Objects
import Verif.Props.Odds
import Verif.Props.OneMax
import Verif.Props.Operator
import Verif.Props.Parameters
import Verif.Props.Pickle
import Verif.Props.Positions
import Verif.Props.Pressure
import Verif.Props.Primitives
import Verif.Props.Printing
import Verif.Props.Processes
import Verif.Props.Progress
import Verif.Props.Published
import Verif.Props.Publisher
import Verif.Props.Recombination
import Verif.Props.Regression
import Verif.Props.Renamed
import Verif.Props.Reports
import Verif.Props.Reproducible
import Verif.Props.Rescale
import Verif.Props.Restore
import Verif.Props.Resume
import Verif.Props.Retry
import Verif.Props.RootCreator
import Verif.Props.Run
import Verif.Props.Schedule
import Verif.Props.Seeds
import Verif.Props.Selection
import Verif.Props.Several
import Verif.Props.Sharing
import Verif.Props.Shorter
import Verif.Props.Shown
import Verif.Props.Statistics
import Verif.Props.Subpopulation
import Verif.Props.SymbolicRegression
import Verif.Props.Target
import Verif.Props.TerminalOdds
import Verif.Props.Termination
import Verif.Props.Together
import Verif.Props.Told
import Verif.Props.Total
import Verif.Props.TreeOdds
import Verif.Props.TypedMultiplexer
import Verif.Props.TypedRun
import Verif.Props.TypedTotal
import Verif.Props.Uniform
import Verif.Props.Units
import Verif.Props.Unstuck
import Verif.Props.UnstuckGP
import Verif.Props.WholeVec
import Verif.Props.Windows
import Verif.Props.Zdt
