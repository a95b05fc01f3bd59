import Verif.Props.Formats
import Verif.Props.Outputs
import Verif.Props.Inputs
import Verif.Props.Predicates
import Verif.Props.Safety
import Verif.Props.Relations
import Verif.Props.Chains
import Verif.Props.Winding
import Verif.Props.Trapezoids
import Verif.Props.Mesh
import Verif.Props.Counting
import Verif.Props.Rearranging
import Verif.Props.Ending
import Verif.Props.Floats
import Verif.Props.Floats32
import Verif.Props.Canonical
import Verif.Props.Faces
import Verif.Props.Wild
import Verif.Props.Cost
import Verif.Props.CostMany
import Verif.Props.CostAll
import Verif.Props.CostTri
import Verif.Props.Quadratic
import Verif.Props.Nodes
import Verif.Props.Containers
import Verif.Props.Undetected
import Verif.Props.CostFloat
import Verif.Props.CostCovers
import Verif.Props.Shuffle
import Verif.Props.CostWorst
import Verif.Props.Touching
import Verif.Props.FloatEdges
import Verif.Props.FloatModel
import Verif.Props.Words
import Verif.Props.WordsExact
import Verif.Props.DebugCost
import Verif.Props.Quick
import Verif.Props.WordsAny
import Verif.Props.NodesWorst
import Verif.Props.FloatWorst
import Verif.Props.Stream
import Verif.Props.TouchRight
import Verif.Props.TouchCost
import Verif.Props.TouchLocate
import Verif.Props.TouchSame
