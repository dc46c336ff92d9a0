import Verif.Spec.Luau

/-! Helper lemmas, written by tools/gen_kinds.py: the kinds of nodes that have only one reading. -/

namespace FM.Parser
open FM.Spec
variable {cs : List Node}

@[simp] theorem chosen_absent : Chosen .absent cs = True := rfl
@[simp] theorem chosen_present : Chosen .present cs = True := rfl
@[simp] theorem chosen_vec : Chosen .vec cs = True := rfl
@[simp] theorem chosen_tuple : Chosen .tuple cs = True := rfl
@[simp] theorem chosen_punct : Chosen .punct cs = True := rfl
@[simp] theorem chosen_pairEnd : Chosen .pairEnd cs = True := rfl
@[simp] theorem chosen_pairPunct : Chosen .pairPunct cs = True := rfl
@[simp] theorem chosen_span : Chosen .span cs = True := rfl
@[simp] theorem chosen_lastBreak : Chosen .lastBreak cs = True := rfl
@[simp] theorem chosen_lastContinue : Chosen .lastContinue cs = True := rfl
@[simp] theorem chosen_lastReturn : Chosen .lastReturn cs = True := rfl
@[simp] theorem chosen_ret : Chosen .ret cs = True := rfl
@[simp] theorem chosen_fieldExprKey : Chosen .fieldExprKey cs = True := rfl
@[simp] theorem chosen_fieldNameKey : Chosen .fieldNameKey cs = True := rfl
@[simp] theorem chosen_fieldSet : Chosen .fieldSet cs = True := rfl
@[simp] theorem chosen_fieldNoKey : Chosen .fieldNoKey cs = True := rfl
@[simp] theorem chosen_tableCtor : Chosen .tableCtor cs = True := rfl
@[simp] theorem chosen_anonFunc : Chosen .anonFunc cs = True := rfl
@[simp] theorem chosen_exprParens : Chosen .exprParens cs = True := rfl
@[simp] theorem chosen_exprUnary : Chosen .exprUnary cs = True := rfl
@[simp] theorem chosen_exprFunction : Chosen .exprFunction cs = True := rfl
@[simp] theorem chosen_exprCall : Chosen .exprCall cs = True := rfl
@[simp] theorem chosen_exprIf : Chosen .exprIf cs = True := rfl
@[simp] theorem chosen_exprInterp : Chosen .exprInterp cs = True := rfl
@[simp] theorem chosen_exprTable : Chosen .exprTable cs = True := rfl
@[simp] theorem chosen_exprNumber : Chosen .exprNumber cs = True := rfl
@[simp] theorem chosen_exprString : Chosen .exprString cs = True := rfl
@[simp] theorem chosen_exprSymbol : Chosen .exprSymbol cs = True := rfl
@[simp] theorem chosen_exprVar : Chosen .exprVar cs = True := rfl
@[simp] theorem chosen_stmtAssignment : Chosen .stmtAssignment cs = True := rfl
@[simp] theorem chosen_stmtDo : Chosen .stmtDo cs = True := rfl
@[simp] theorem chosen_stmtCall : Chosen .stmtCall cs = True := rfl
@[simp] theorem chosen_stmtFunction : Chosen .stmtFunction cs = True := rfl
@[simp] theorem chosen_stmtGenericFor : Chosen .stmtGenericFor cs = True := rfl
@[simp] theorem chosen_stmtIf : Chosen .stmtIf cs = True := rfl
@[simp] theorem chosen_stmtLocalAssignment : Chosen .stmtLocalAssignment cs = True := rfl
@[simp] theorem chosen_stmtLocalFunction : Chosen .stmtLocalFunction cs = True := rfl
@[simp] theorem chosen_stmtNumericFor : Chosen .stmtNumericFor cs = True := rfl
@[simp] theorem chosen_stmtRepeat : Chosen .stmtRepeat cs = True := rfl
@[simp] theorem chosen_stmtWhile : Chosen .stmtWhile cs = True := rfl
@[simp] theorem chosen_stmtCompound : Chosen .stmtCompound cs = True := rfl
@[simp] theorem chosen_stmtExportedType : Chosen .stmtExportedType cs = True := rfl
@[simp] theorem chosen_stmtType : Chosen .stmtType cs = True := rfl
@[simp] theorem chosen_stmtExportedTypeFunction : Chosen .stmtExportedTypeFunction cs = True := rfl
@[simp] theorem chosen_stmtTypeFunction : Chosen .stmtTypeFunction cs = True := rfl
@[simp] theorem chosen_stmtGoto : Chosen .stmtGoto cs = True := rfl
@[simp] theorem chosen_stmtLabel : Chosen .stmtLabel cs = True := rfl
@[simp] theorem chosen_prefixExpr : Chosen .prefixExpr cs = True := rfl
@[simp] theorem chosen_prefixName : Chosen .prefixName cs = True := rfl
@[simp] theorem chosen_indexBrackets : Chosen .indexBrackets cs = True := rfl
@[simp] theorem chosen_indexDot : Chosen .indexDot cs = True := rfl
@[simp] theorem chosen_argsParens : Chosen .argsParens cs = True := rfl
@[simp] theorem chosen_argsString : Chosen .argsString cs = True := rfl
@[simp] theorem chosen_argsTable : Chosen .argsTable cs = True := rfl
@[simp] theorem chosen_ifBlock : Chosen .ifBlock cs = True := rfl
@[simp] theorem chosen_elseIf : Chosen .elseIf cs = True := rfl
@[simp] theorem chosen_whileBlock : Chosen .whileBlock cs = True := rfl
@[simp] theorem chosen_repeatBlock : Chosen .repeatBlock cs = True := rfl
@[simp] theorem chosen_methodCall : Chosen .methodCall cs = True := rfl
@[simp] theorem chosen_callAnonymous : Chosen .callAnonymous cs = True := rfl
@[simp] theorem chosen_callMethod : Chosen .callMethod cs = True := rfl
@[simp] theorem chosen_paramEllipsis : Chosen .paramEllipsis cs = True := rfl
@[simp] theorem chosen_paramName : Chosen .paramName cs = True := rfl
@[simp] theorem chosen_suffixCall : Chosen .suffixCall cs = True := rfl
@[simp] theorem chosen_suffixIndex : Chosen .suffixIndex cs = True := rfl
@[simp] theorem chosen_suffixTypeInst : Chosen .suffixTypeInst cs = True := rfl
@[simp] theorem chosen_varExpr : Chosen .varExpr cs = True := rfl
@[simp] theorem chosen_varExpression : Chosen .varExpression cs = True := rfl
@[simp] theorem chosen_varName : Chosen .varName cs = True := rfl
@[simp] theorem chosen_assignment : Chosen .assignment cs = True := rfl
@[simp] theorem chosen_localFunction : Chosen .localFunction cs = True := rfl
@[simp] theorem chosen_doBlock : Chosen .doBlock cs = True := rfl
@[simp] theorem chosen_functionCall : Chosen .functionCall cs = True := rfl
@[simp] theorem chosen_functionName : Chosen .functionName cs = True := rfl
@[simp] theorem chosen_functionDecl : Chosen .functionDecl cs = True := rfl
@[simp] theorem chosen_binOp (op : BinOp) : Chosen (.binOp op) cs = True := rfl
@[simp] theorem chosen_unOp (op : UnOp) : Chosen (.unOp op) cs = True := rfl
@[simp] theorem chosen_attribute : Chosen .attribute cs = True := rfl
@[simp] theorem chosen_gotoStmt : Chosen .gotoStmt cs = True := rfl
@[simp] theorem chosen_label : Chosen .label cs = True := rfl
@[simp] theorem chosen_compoundAssignment : Chosen .compoundAssignment cs = True := rfl
@[simp] theorem chosen_compoundOp (op : CompoundOp) : Chosen (.compoundOp op) cs = True := rfl
@[simp] theorem chosen_tyString : Chosen .tyString cs = True := rfl
@[simp] theorem chosen_tyBoolean : Chosen .tyBoolean cs = True := rfl
@[simp] theorem chosen_tyGenericPack : Chosen .tyGenericPack cs = True := rfl
@[simp] theorem chosen_tyIntersection : Chosen .tyIntersection cs = True := rfl
@[simp] theorem chosen_tyTypeof : Chosen .tyTypeof cs = True := rfl
@[simp] theorem chosen_tyUnion : Chosen .tyUnion cs = True := rfl
@[simp] theorem chosen_tyVariadicPack : Chosen .tyVariadicPack cs = True := rfl
@[simp] theorem chosen_idxBasic : Chosen .idxBasic cs = True := rfl
@[simp] theorem chosen_keyName : Chosen .keyName cs = True := rfl
@[simp] theorem chosen_genericName : Chosen .genericName cs = True := rfl
@[simp] theorem chosen_genericVariadic : Chosen .genericVariadic cs = True := rfl
@[simp] theorem chosen_typeSpec : Chosen .typeSpec cs = True := rfl
@[simp] theorem chosen_typeArg : Chosen .typeArg cs = True := rfl
@[simp] theorem chosen_exportedTypeDecl : Chosen .exportedTypeDecl cs = True := rfl
@[simp] theorem chosen_typeFunction : Chosen .typeFunction cs = True := rfl
@[simp] theorem chosen_exportedTypeFunction : Chosen .exportedTypeFunction cs = True := rfl
@[simp] theorem chosen_ifExpr : Chosen .ifExpr cs = True := rfl
@[simp] theorem chosen_elseIfExpr : Chosen .elseIfExpr cs = True := rfl
@[simp] theorem chosen_interpString : Chosen .interpString cs = True := rfl
@[simp] theorem chosen_luauAttr : Chosen .luauAttr cs = True := rfl

end FM.Parser
