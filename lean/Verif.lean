import Verif.BytesProps
import Verif.Utf8Props
import Verif.EscapeProps
import Verif.StringSetProps
import Verif.DefineMapProps
import Verif.DirectivesProps
import Verif.SimpleProps
import Verif.PPExprProps
import Verif.MacroProps
import Verif.LayoutProps
import Verif.BitfieldProps
import Verif.TypesProps
import Verif.SymbolsProps
import Verif.PragmaPackProps
import Verif.SpecifiersProps
import Verif.GenericProps
import Verif.PrattProps
import Verif.CodegenProps
import Verif.CastProps
import Verif.MemoryProps
import Verif.CondProps
import Verif.FrameProps
import Verif.PhiProps
import Verif.CallProps
import Verif.ClassifyProps
import Verif.ConventionProps
import Verif.StackParamProps
import Verif.EncodeProps
import Verif.ObjectProps
import Verif.StaticInitProps
import Verif.LinkerProps
import Verif.ElfProps
import Verif.CoffProps
import Verif.IrProps
import Verif.RemoveDeadProps
import Verif.DominatorProps
import Verif.TokenizerProps
import Verif.WindowProps
import Verif.InputProps
import Verif.ArgumentsProps
import Verif.ScheduleProps
import Verif.StoreRegisterProps
import Verif.MacroSubstProps
import Verif.FloatArithProps
import Verif.ScheduleOrderProps
import Verif.StatesProps
import Verif.Mem2regProps
import Verif.StatementProps
import Verif.TentativeProps
import Verif.InitialProps
import Verif.ExprIrProps
import Verif.DeclaratorProps
import Verif.FuncProps
import Verif.TagsProps
import Verif.SpecNamesProps
import Verif.AssembleProps
import Verif.MsProps
import Verif.AsmTextProps
import Verif.ConstExprProps
import Verif.EnumeratorsProps
import Verif.ConstExprTypes
import Verif.PreprocessedProps
import Verif.LiteralsProps
import Verif.MembersProps
import Verif.SessionProps
import Verif.LvalueProps
import Verif.VlaProps
import Verif.SizeOfProps
import Verif.ArgsProps
import Verif.AutoInitProps
import Verif.DriverProps
import Verif.AddrConstProps
import Verif.IncludeProps
import Verif.PeepholeProps
import Verif.PragmaProps
import Verif.GuardProps
