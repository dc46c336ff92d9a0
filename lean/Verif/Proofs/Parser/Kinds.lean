import Verif.Proofs.Ast.View
import Verif.Spec.Grammar

/-! Helper lemmas, written by tools/gen_kinds.py: availability, side conditions and print order of each kind. -/

namespace FM.Parser
open FM.Spec
variable {c : Cfg} {cs : List Node}

@[simp] theorem available_absent : available c .absent = true := rfl
@[simp] theorem connected_absent : Connected c .absent cs = True := rfl
@[simp] theorem flat_absent_plain : (Node.node .absent cs).flat = cs.flatMap Node.flat := Node.flat_plain rfl cs
@[simp] theorem available_present : available c .present = true := rfl
@[simp] theorem connected_present : Connected c .present cs = True := rfl
@[simp] theorem flat_present_plain : (Node.node .present cs).flat = cs.flatMap Node.flat := Node.flat_plain rfl cs
@[simp] theorem available_vec : available c .vec = true := rfl
@[simp] theorem connected_vec : Connected c .vec cs = True := rfl
@[simp] theorem flat_vec_plain : (Node.node .vec cs).flat = cs.flatMap Node.flat := Node.flat_plain rfl cs
@[simp] theorem available_tuple : available c .tuple = true := rfl
@[simp] theorem connected_tuple : Connected c .tuple cs = True := rfl
@[simp] theorem flat_tuple_plain : (Node.node .tuple cs).flat = cs.flatMap Node.flat := Node.flat_plain rfl cs
@[simp] theorem available_punct : available c .punct = true := rfl
@[simp] theorem connected_punct : Connected c .punct cs = True := rfl
@[simp] theorem flat_punct_plain : (Node.node .punct cs).flat = cs.flatMap Node.flat := Node.flat_plain rfl cs
@[simp] theorem available_pairEnd : available c .pairEnd = true := rfl
@[simp] theorem connected_pairEnd : Connected c .pairEnd cs = True := rfl
@[simp] theorem flat_pairEnd_plain : (Node.node .pairEnd cs).flat = cs.flatMap Node.flat := Node.flat_plain rfl cs
@[simp] theorem available_pairPunct : available c .pairPunct = true := rfl
@[simp] theorem connected_pairPunct : Connected c .pairPunct cs = True := rfl
@[simp] theorem flat_pairPunct_plain : (Node.node .pairPunct cs).flat = cs.flatMap Node.flat := Node.flat_plain rfl cs
@[simp] theorem available_span : available c .span = true := rfl
@[simp] theorem connected_span : Connected c .span cs = True := rfl
@[simp] theorem flat_span_plain : (Node.node .span cs).flat = cs.flatMap Node.flat := Node.flat_plain rfl cs
@[simp] theorem available_block : available c .block = true := rfl
@[simp] theorem flat_block_plain : (Node.node .block cs).flat = cs.flatMap Node.flat := Node.flat_plain rfl cs
@[simp] theorem available_lastBreak : available c .lastBreak = true := rfl
@[simp] theorem connected_lastBreak : Connected c .lastBreak cs = True := rfl
@[simp] theorem flat_lastBreak_plain : (Node.node .lastBreak cs).flat = cs.flatMap Node.flat := Node.flat_plain rfl cs
@[simp] theorem available_lastContinue : available c .lastContinue = c.luau := rfl
@[simp] theorem connected_lastContinue : Connected c .lastContinue cs = True := rfl
@[simp] theorem flat_lastContinue_plain : (Node.node .lastContinue cs).flat = cs.flatMap Node.flat := Node.flat_plain rfl cs
@[simp] theorem available_lastReturn : available c .lastReturn = true := rfl
@[simp] theorem connected_lastReturn : Connected c .lastReturn cs = True := rfl
@[simp] theorem flat_lastReturn_plain : (Node.node .lastReturn cs).flat = cs.flatMap Node.flat := Node.flat_plain rfl cs
@[simp] theorem available_ret : available c .ret = true := rfl
@[simp] theorem connected_ret : Connected c .ret cs = True := rfl
@[simp] theorem flat_ret_plain : (Node.node .ret cs).flat = cs.flatMap Node.flat := Node.flat_plain rfl cs
@[simp] theorem available_fieldExprKey : available c .fieldExprKey = true := rfl
@[simp] theorem connected_fieldExprKey : Connected c .fieldExprKey cs = True := rfl
@[simp] theorem available_fieldNameKey : available c .fieldNameKey = true := rfl
@[simp] theorem connected_fieldNameKey : Connected c .fieldNameKey cs = True := rfl
@[simp] theorem flat_fieldNameKey_plain : (Node.node .fieldNameKey cs).flat = cs.flatMap Node.flat := Node.flat_plain rfl cs
@[simp] theorem connected_fieldSet : Connected c .fieldSet cs = True := rfl
@[simp] theorem flat_fieldSet_plain : (Node.node .fieldSet cs).flat = cs.flatMap Node.flat := Node.flat_plain rfl cs
@[simp] theorem available_fieldNoKey : available c .fieldNoKey = true := rfl
@[simp] theorem connected_fieldNoKey : Connected c .fieldNoKey cs = True := rfl
@[simp] theorem flat_fieldNoKey_plain : (Node.node .fieldNoKey cs).flat = cs.flatMap Node.flat := Node.flat_plain rfl cs
@[simp] theorem available_tableCtor : available c .tableCtor = true := rfl
@[simp] theorem connected_tableCtor : Connected c .tableCtor cs = True := rfl
@[simp] theorem available_anonFunc : available c .anonFunc = true := rfl
@[simp] theorem connected_anonFunc : Connected c .anonFunc cs = True := rfl
@[simp] theorem flat_anonFunc_plain : (Node.node .anonFunc cs).flat = cs.flatMap Node.flat := Node.flat_plain rfl cs
@[simp] theorem available_exprBinary : available c .exprBinary = true := rfl
@[simp] theorem flat_exprBinary_plain : (Node.node .exprBinary cs).flat = cs.flatMap Node.flat := Node.flat_plain rfl cs
@[simp] theorem available_exprParens : available c .exprParens = true := rfl
@[simp] theorem connected_exprParens : Connected c .exprParens cs = True := rfl
@[simp] theorem available_exprUnary : available c .exprUnary = true := rfl
@[simp] theorem flat_exprUnary_plain : (Node.node .exprUnary cs).flat = cs.flatMap Node.flat := Node.flat_plain rfl cs
@[simp] theorem available_exprFunction : available c .exprFunction = true := rfl
@[simp] theorem connected_exprFunction : Connected c .exprFunction cs = True := rfl
@[simp] theorem flat_exprFunction_plain : (Node.node .exprFunction cs).flat = cs.flatMap Node.flat := Node.flat_plain rfl cs
@[simp] theorem available_exprCall : available c .exprCall = true := rfl
@[simp] theorem connected_exprCall : Connected c .exprCall cs = True := rfl
@[simp] theorem flat_exprCall_plain : (Node.node .exprCall cs).flat = cs.flatMap Node.flat := Node.flat_plain rfl cs
@[simp] theorem available_exprIf : available c .exprIf = c.luau := rfl
@[simp] theorem connected_exprIf : Connected c .exprIf cs = True := rfl
@[simp] theorem flat_exprIf_plain : (Node.node .exprIf cs).flat = cs.flatMap Node.flat := Node.flat_plain rfl cs
@[simp] theorem available_exprInterp : available c .exprInterp = c.luau := rfl
@[simp] theorem connected_exprInterp : Connected c .exprInterp cs = True := rfl
@[simp] theorem flat_exprInterp_plain : (Node.node .exprInterp cs).flat = cs.flatMap Node.flat := Node.flat_plain rfl cs
@[simp] theorem available_exprTable : available c .exprTable = true := rfl
@[simp] theorem connected_exprTable : Connected c .exprTable cs = True := rfl
@[simp] theorem flat_exprTable_plain : (Node.node .exprTable cs).flat = cs.flatMap Node.flat := Node.flat_plain rfl cs
@[simp] theorem available_exprNumber : available c .exprNumber = true := rfl
@[simp] theorem connected_exprNumber : Connected c .exprNumber cs = True := rfl
@[simp] theorem flat_exprNumber_plain : (Node.node .exprNumber cs).flat = cs.flatMap Node.flat := Node.flat_plain rfl cs
@[simp] theorem available_exprString : available c .exprString = true := rfl
@[simp] theorem connected_exprString : Connected c .exprString cs = True := rfl
@[simp] theorem flat_exprString_plain : (Node.node .exprString cs).flat = cs.flatMap Node.flat := Node.flat_plain rfl cs
@[simp] theorem available_exprSymbol : available c .exprSymbol = true := rfl
@[simp] theorem connected_exprSymbol : Connected c .exprSymbol cs = True := rfl
@[simp] theorem flat_exprSymbol_plain : (Node.node .exprSymbol cs).flat = cs.flatMap Node.flat := Node.flat_plain rfl cs
@[simp] theorem available_exprAssertion : available c .exprAssertion = c.luau := rfl
@[simp] theorem connected_exprAssertion : Connected c .exprAssertion cs = True := rfl
@[simp] theorem flat_exprAssertion_plain : (Node.node .exprAssertion cs).flat = cs.flatMap Node.flat := Node.flat_plain rfl cs
@[simp] theorem available_exprVar : available c .exprVar = true := rfl
@[simp] theorem flat_exprVar_plain : (Node.node .exprVar cs).flat = cs.flatMap Node.flat := Node.flat_plain rfl cs
@[simp] theorem available_stmtAssignment : available c .stmtAssignment = true := rfl
@[simp] theorem connected_stmtAssignment : Connected c .stmtAssignment cs = True := rfl
@[simp] theorem flat_stmtAssignment_plain : (Node.node .stmtAssignment cs).flat = cs.flatMap Node.flat := Node.flat_plain rfl cs
@[simp] theorem available_stmtDo : available c .stmtDo = true := rfl
@[simp] theorem connected_stmtDo : Connected c .stmtDo cs = True := rfl
@[simp] theorem flat_stmtDo_plain : (Node.node .stmtDo cs).flat = cs.flatMap Node.flat := Node.flat_plain rfl cs
@[simp] theorem available_stmtCall : available c .stmtCall = true := rfl
@[simp] theorem connected_stmtCall : Connected c .stmtCall cs = True := rfl
@[simp] theorem flat_stmtCall_plain : (Node.node .stmtCall cs).flat = cs.flatMap Node.flat := Node.flat_plain rfl cs
@[simp] theorem available_stmtFunction : available c .stmtFunction = true := rfl
@[simp] theorem connected_stmtFunction : Connected c .stmtFunction cs = True := rfl
@[simp] theorem flat_stmtFunction_plain : (Node.node .stmtFunction cs).flat = cs.flatMap Node.flat := Node.flat_plain rfl cs
@[simp] theorem available_stmtGenericFor : available c .stmtGenericFor = true := rfl
@[simp] theorem connected_stmtGenericFor : Connected c .stmtGenericFor cs = True := rfl
@[simp] theorem flat_stmtGenericFor_plain : (Node.node .stmtGenericFor cs).flat = cs.flatMap Node.flat := Node.flat_plain rfl cs
@[simp] theorem available_stmtIf : available c .stmtIf = true := rfl
@[simp] theorem connected_stmtIf : Connected c .stmtIf cs = True := rfl
@[simp] theorem flat_stmtIf_plain : (Node.node .stmtIf cs).flat = cs.flatMap Node.flat := Node.flat_plain rfl cs
@[simp] theorem available_stmtLocalAssignment : available c .stmtLocalAssignment = true := rfl
@[simp] theorem connected_stmtLocalAssignment : Connected c .stmtLocalAssignment cs = True := rfl
@[simp] theorem flat_stmtLocalAssignment_plain : (Node.node .stmtLocalAssignment cs).flat = cs.flatMap Node.flat := Node.flat_plain rfl cs
@[simp] theorem available_stmtLocalFunction : available c .stmtLocalFunction = true := rfl
@[simp] theorem connected_stmtLocalFunction : Connected c .stmtLocalFunction cs = True := rfl
@[simp] theorem flat_stmtLocalFunction_plain : (Node.node .stmtLocalFunction cs).flat = cs.flatMap Node.flat := Node.flat_plain rfl cs
@[simp] theorem available_stmtNumericFor : available c .stmtNumericFor = true := rfl
@[simp] theorem connected_stmtNumericFor : Connected c .stmtNumericFor cs = True := rfl
@[simp] theorem flat_stmtNumericFor_plain : (Node.node .stmtNumericFor cs).flat = cs.flatMap Node.flat := Node.flat_plain rfl cs
@[simp] theorem available_stmtRepeat : available c .stmtRepeat = true := rfl
@[simp] theorem connected_stmtRepeat : Connected c .stmtRepeat cs = True := rfl
@[simp] theorem flat_stmtRepeat_plain : (Node.node .stmtRepeat cs).flat = cs.flatMap Node.flat := Node.flat_plain rfl cs
@[simp] theorem available_stmtWhile : available c .stmtWhile = true := rfl
@[simp] theorem connected_stmtWhile : Connected c .stmtWhile cs = True := rfl
@[simp] theorem flat_stmtWhile_plain : (Node.node .stmtWhile cs).flat = cs.flatMap Node.flat := Node.flat_plain rfl cs
@[simp] theorem connected_stmtCompound : Connected c .stmtCompound cs = True := rfl
@[simp] theorem flat_stmtCompound_plain : (Node.node .stmtCompound cs).flat = cs.flatMap Node.flat := Node.flat_plain rfl cs
@[simp] theorem available_stmtExportedType : available c .stmtExportedType = c.luau := rfl
@[simp] theorem connected_stmtExportedType : Connected c .stmtExportedType cs = True := rfl
@[simp] theorem flat_stmtExportedType_plain : (Node.node .stmtExportedType cs).flat = cs.flatMap Node.flat := Node.flat_plain rfl cs
@[simp] theorem available_stmtType : available c .stmtType = c.luau := rfl
@[simp] theorem connected_stmtType : Connected c .stmtType cs = True := rfl
@[simp] theorem flat_stmtType_plain : (Node.node .stmtType cs).flat = cs.flatMap Node.flat := Node.flat_plain rfl cs
@[simp] theorem available_stmtExportedTypeFunction : available c .stmtExportedTypeFunction = c.luau := rfl
@[simp] theorem connected_stmtExportedTypeFunction : Connected c .stmtExportedTypeFunction cs = True := rfl
@[simp] theorem flat_stmtExportedTypeFunction_plain : (Node.node .stmtExportedTypeFunction cs).flat = cs.flatMap Node.flat := Node.flat_plain rfl cs
@[simp] theorem available_stmtTypeFunction : available c .stmtTypeFunction = c.luau := rfl
@[simp] theorem connected_stmtTypeFunction : Connected c .stmtTypeFunction cs = True := rfl
@[simp] theorem flat_stmtTypeFunction_plain : (Node.node .stmtTypeFunction cs).flat = cs.flatMap Node.flat := Node.flat_plain rfl cs
@[simp] theorem connected_stmtGoto : Connected c .stmtGoto cs = True := rfl
@[simp] theorem flat_stmtGoto_plain : (Node.node .stmtGoto cs).flat = cs.flatMap Node.flat := Node.flat_plain rfl cs
@[simp] theorem connected_stmtLabel : Connected c .stmtLabel cs = True := rfl
@[simp] theorem flat_stmtLabel_plain : (Node.node .stmtLabel cs).flat = cs.flatMap Node.flat := Node.flat_plain rfl cs
@[simp] theorem available_prefixExpr : available c .prefixExpr = true := rfl
@[simp] theorem flat_prefixExpr_plain : (Node.node .prefixExpr cs).flat = cs.flatMap Node.flat := Node.flat_plain rfl cs
@[simp] theorem available_prefixName : available c .prefixName = true := rfl
@[simp] theorem connected_prefixName : Connected c .prefixName cs = True := rfl
@[simp] theorem flat_prefixName_plain : (Node.node .prefixName cs).flat = cs.flatMap Node.flat := Node.flat_plain rfl cs
@[simp] theorem available_indexBrackets : available c .indexBrackets = true := rfl
@[simp] theorem connected_indexBrackets : Connected c .indexBrackets cs = True := rfl
@[simp] theorem available_indexDot : available c .indexDot = true := rfl
@[simp] theorem connected_indexDot : Connected c .indexDot cs = True := rfl
@[simp] theorem flat_indexDot_plain : (Node.node .indexDot cs).flat = cs.flatMap Node.flat := Node.flat_plain rfl cs
@[simp] theorem available_argsParens : available c .argsParens = true := rfl
@[simp] theorem connected_argsParens : Connected c .argsParens cs = True := rfl
@[simp] theorem available_argsString : available c .argsString = true := rfl
@[simp] theorem connected_argsString : Connected c .argsString cs = True := rfl
@[simp] theorem flat_argsString_plain : (Node.node .argsString cs).flat = cs.flatMap Node.flat := Node.flat_plain rfl cs
@[simp] theorem available_argsTable : available c .argsTable = true := rfl
@[simp] theorem connected_argsTable : Connected c .argsTable cs = True := rfl
@[simp] theorem flat_argsTable_plain : (Node.node .argsTable cs).flat = cs.flatMap Node.flat := Node.flat_plain rfl cs
@[simp] theorem available_numericFor : available c .numericFor = true := rfl
@[simp] theorem available_genericFor : available c .genericFor = true := rfl
@[simp] theorem available_ifBlock : available c .ifBlock = true := rfl
@[simp] theorem flat_ifBlock_plain : (Node.node .ifBlock cs).flat = cs.flatMap Node.flat := Node.flat_plain rfl cs
@[simp] theorem available_elseIf : available c .elseIf = true := rfl
@[simp] theorem connected_elseIf : Connected c .elseIf cs = True := rfl
@[simp] theorem flat_elseIf_plain : (Node.node .elseIf cs).flat = cs.flatMap Node.flat := Node.flat_plain rfl cs
@[simp] theorem available_whileBlock : available c .whileBlock = true := rfl
@[simp] theorem connected_whileBlock : Connected c .whileBlock cs = True := rfl
@[simp] theorem flat_whileBlock_plain : (Node.node .whileBlock cs).flat = cs.flatMap Node.flat := Node.flat_plain rfl cs
@[simp] theorem available_repeatBlock : available c .repeatBlock = true := rfl
@[simp] theorem connected_repeatBlock : Connected c .repeatBlock cs = True := rfl
@[simp] theorem flat_repeatBlock_plain : (Node.node .repeatBlock cs).flat = cs.flatMap Node.flat := Node.flat_plain rfl cs
@[simp] theorem available_methodCall : available c .methodCall = true := rfl
@[simp] theorem connected_methodCall : Connected c .methodCall cs = True := rfl
@[simp] theorem flat_methodCall_plain : (Node.node .methodCall cs).flat = cs.flatMap Node.flat := Node.flat_plain rfl cs
@[simp] theorem available_callAnonymous : available c .callAnonymous = true := rfl
@[simp] theorem connected_callAnonymous : Connected c .callAnonymous cs = True := rfl
@[simp] theorem flat_callAnonymous_plain : (Node.node .callAnonymous cs).flat = cs.flatMap Node.flat := Node.flat_plain rfl cs
@[simp] theorem available_callMethod : available c .callMethod = true := rfl
@[simp] theorem connected_callMethod : Connected c .callMethod cs = True := rfl
@[simp] theorem flat_callMethod_plain : (Node.node .callMethod cs).flat = cs.flatMap Node.flat := Node.flat_plain rfl cs
@[simp] theorem available_funcBody : available c .funcBody = true := rfl
@[simp] theorem available_paramEllipsis : available c .paramEllipsis = true := rfl
@[simp] theorem connected_paramEllipsis : Connected c .paramEllipsis cs = True := rfl
@[simp] theorem flat_paramEllipsis_plain : (Node.node .paramEllipsis cs).flat = cs.flatMap Node.flat := Node.flat_plain rfl cs
@[simp] theorem available_paramName : available c .paramName = true := rfl
@[simp] theorem connected_paramName : Connected c .paramName cs = True := rfl
@[simp] theorem flat_paramName_plain : (Node.node .paramName cs).flat = cs.flatMap Node.flat := Node.flat_plain rfl cs
@[simp] theorem available_suffixCall : available c .suffixCall = true := rfl
@[simp] theorem connected_suffixCall : Connected c .suffixCall cs = True := rfl
@[simp] theorem flat_suffixCall_plain : (Node.node .suffixCall cs).flat = cs.flatMap Node.flat := Node.flat_plain rfl cs
@[simp] theorem available_suffixIndex : available c .suffixIndex = true := rfl
@[simp] theorem connected_suffixIndex : Connected c .suffixIndex cs = True := rfl
@[simp] theorem flat_suffixIndex_plain : (Node.node .suffixIndex cs).flat = cs.flatMap Node.flat := Node.flat_plain rfl cs
@[simp] theorem available_suffixTypeInst : available c .suffixTypeInst = c.luau := rfl
@[simp] theorem connected_suffixTypeInst : Connected c .suffixTypeInst cs = True := rfl
@[simp] theorem flat_suffixTypeInst_plain : (Node.node .suffixTypeInst cs).flat = cs.flatMap Node.flat := Node.flat_plain rfl cs
@[simp] theorem available_varExpr : available c .varExpr = true := rfl
@[simp] theorem flat_varExpr_plain : (Node.node .varExpr cs).flat = cs.flatMap Node.flat := Node.flat_plain rfl cs
@[simp] theorem available_varExpression : available c .varExpression = true := rfl
@[simp] theorem connected_varExpression : Connected c .varExpression cs = True := rfl
@[simp] theorem flat_varExpression_plain : (Node.node .varExpression cs).flat = cs.flatMap Node.flat := Node.flat_plain rfl cs
@[simp] theorem available_varName : available c .varName = true := rfl
@[simp] theorem connected_varName : Connected c .varName cs = True := rfl
@[simp] theorem flat_varName_plain : (Node.node .varName cs).flat = cs.flatMap Node.flat := Node.flat_plain rfl cs
@[simp] theorem available_assignment : available c .assignment = true := rfl
@[simp] theorem connected_assignment : Connected c .assignment cs = True := rfl
@[simp] theorem flat_assignment_plain : (Node.node .assignment cs).flat = cs.flatMap Node.flat := Node.flat_plain rfl cs
@[simp] theorem available_localFunction : available c .localFunction = true := rfl
@[simp] theorem connected_localFunction : Connected c .localFunction cs = True := rfl
@[simp] theorem flat_localFunction_plain : (Node.node .localFunction cs).flat = cs.flatMap Node.flat := Node.flat_plain rfl cs
@[simp] theorem available_localAssignment : available c .localAssignment = true := rfl
@[simp] theorem available_doBlock : available c .doBlock = true := rfl
@[simp] theorem connected_doBlock : Connected c .doBlock cs = True := rfl
@[simp] theorem flat_doBlock_plain : (Node.node .doBlock cs).flat = cs.flatMap Node.flat := Node.flat_plain rfl cs
@[simp] theorem available_functionCall : available c .functionCall = true := rfl
@[simp] theorem flat_functionCall_plain : (Node.node .functionCall cs).flat = cs.flatMap Node.flat := Node.flat_plain rfl cs
@[simp] theorem available_functionName : available c .functionName = true := rfl
@[simp] theorem connected_functionName : Connected c .functionName cs = True := rfl
@[simp] theorem flat_functionName_plain : (Node.node .functionName cs).flat = cs.flatMap Node.flat := Node.flat_plain rfl cs
@[simp] theorem available_functionDecl : available c .functionDecl = true := rfl
@[simp] theorem connected_functionDecl : Connected c .functionDecl cs = True := rfl
@[simp] theorem flat_functionDecl_plain : (Node.node .functionDecl cs).flat = cs.flatMap Node.flat := Node.flat_plain rfl cs
@[simp] theorem connected_binOp (op : BinOp) : Connected c (.binOp op) cs = True := rfl
@[simp] theorem flat_binOp_plain (op : BinOp) : (Node.node (.binOp op) cs).flat = cs.flatMap Node.flat := Node.flat_plain rfl cs
@[simp] theorem connected_unOp (op : UnOp) : Connected c (.unOp op) cs = True := rfl
@[simp] theorem flat_unOp_plain (op : UnOp) : (Node.node (.unOp op) cs).flat = cs.flatMap Node.flat := Node.flat_plain rfl cs
@[simp] theorem connected_attribute : Connected c .attribute cs = True := rfl
@[simp] theorem available_gotoStmt : available c .gotoStmt = true := rfl
@[simp] theorem connected_gotoStmt : Connected c .gotoStmt cs = True := rfl
@[simp] theorem flat_gotoStmt_plain : (Node.node .gotoStmt cs).flat = cs.flatMap Node.flat := Node.flat_plain rfl cs
@[simp] theorem available_label : available c .label = true := rfl
@[simp] theorem connected_label : Connected c .label cs = True := rfl
@[simp] theorem flat_label_plain : (Node.node .label cs).flat = cs.flatMap Node.flat := Node.flat_plain rfl cs
@[simp] theorem available_compoundAssignment : available c .compoundAssignment = true := rfl
@[simp] theorem connected_compoundAssignment : Connected c .compoundAssignment cs = True := rfl
@[simp] theorem flat_compoundAssignment_plain : (Node.node .compoundAssignment cs).flat = cs.flatMap Node.flat := Node.flat_plain rfl cs
@[simp] theorem available_compoundOp (op : CompoundOp) : available c (.compoundOp op) = true := rfl
@[simp] theorem connected_compoundOp (op : CompoundOp) : Connected c (.compoundOp op) cs = True := rfl
@[simp] theorem flat_compoundOp_plain (op : CompoundOp) : (Node.node (.compoundOp op) cs).flat = cs.flatMap Node.flat := Node.flat_plain rfl cs
@[simp] theorem available_tyArray : available c .tyArray = true := rfl
@[simp] theorem connected_tyArray : Connected c .tyArray cs = True := rfl
@[simp] theorem available_tyBasic : available c .tyBasic = true := rfl
@[simp] theorem connected_tyBasic : Connected c .tyBasic cs = True := rfl
@[simp] theorem flat_tyBasic_plain : (Node.node .tyBasic cs).flat = cs.flatMap Node.flat := Node.flat_plain rfl cs
@[simp] theorem available_tyString : available c .tyString = true := rfl
@[simp] theorem connected_tyString : Connected c .tyString cs = True := rfl
@[simp] theorem flat_tyString_plain : (Node.node .tyString cs).flat = cs.flatMap Node.flat := Node.flat_plain rfl cs
@[simp] theorem available_tyBoolean : available c .tyBoolean = true := rfl
@[simp] theorem connected_tyBoolean : Connected c .tyBoolean cs = True := rfl
@[simp] theorem flat_tyBoolean_plain : (Node.node .tyBoolean cs).flat = cs.flatMap Node.flat := Node.flat_plain rfl cs
@[simp] theorem available_tyCallback : available c .tyCallback = true := rfl
@[simp] theorem connected_tyCallback : Connected c .tyCallback cs = True := rfl
@[simp] theorem available_tyGeneric : available c .tyGeneric = true := rfl
@[simp] theorem connected_tyGeneric : Connected c .tyGeneric cs = True := rfl
@[simp] theorem available_tyGenericPack : available c .tyGenericPack = true := rfl
@[simp] theorem connected_tyGenericPack : Connected c .tyGenericPack cs = True := rfl
@[simp] theorem flat_tyGenericPack_plain : (Node.node .tyGenericPack cs).flat = cs.flatMap Node.flat := Node.flat_plain rfl cs
@[simp] theorem available_tyIntersection : available c .tyIntersection = true := rfl
@[simp] theorem connected_tyIntersection : Connected c .tyIntersection cs = True := rfl
@[simp] theorem flat_tyIntersection_plain : (Node.node .tyIntersection cs).flat = cs.flatMap Node.flat := Node.flat_plain rfl cs
@[simp] theorem available_tyModule : available c .tyModule = true := rfl
@[simp] theorem connected_tyModule : Connected c .tyModule cs = True := rfl
@[simp] theorem flat_tyModule_plain : (Node.node .tyModule cs).flat = cs.flatMap Node.flat := Node.flat_plain rfl cs
@[simp] theorem available_tyOptional : available c .tyOptional = true := rfl
@[simp] theorem connected_tyOptional : Connected c .tyOptional cs = True := rfl
@[simp] theorem flat_tyOptional_plain : (Node.node .tyOptional cs).flat = cs.flatMap Node.flat := Node.flat_plain rfl cs
@[simp] theorem available_tyTable : available c .tyTable = true := rfl
@[simp] theorem connected_tyTable : Connected c .tyTable cs = True := rfl
@[simp] theorem available_tyTypeof : available c .tyTypeof = true := rfl
@[simp] theorem connected_tyTypeof : Connected c .tyTypeof cs = True := rfl
@[simp] theorem available_tyTuple : available c .tyTuple = true := rfl
@[simp] theorem connected_tyTuple : Connected c .tyTuple cs = True := rfl
@[simp] theorem available_tyUnion : available c .tyUnion = true := rfl
@[simp] theorem connected_tyUnion : Connected c .tyUnion cs = True := rfl
@[simp] theorem flat_tyUnion_plain : (Node.node .tyUnion cs).flat = cs.flatMap Node.flat := Node.flat_plain rfl cs
@[simp] theorem available_tyVariadic : available c .tyVariadic = true := rfl
@[simp] theorem connected_tyVariadic : Connected c .tyVariadic cs = True := rfl
@[simp] theorem flat_tyVariadic_plain : (Node.node .tyVariadic cs).flat = cs.flatMap Node.flat := Node.flat_plain rfl cs
@[simp] theorem connected_tyVariadicPack : Connected c .tyVariadicPack cs = True := rfl
@[simp] theorem flat_tyVariadicPack_plain : (Node.node .tyVariadicPack cs).flat = cs.flatMap Node.flat := Node.flat_plain rfl cs
@[simp] theorem available_typeUnion : available c .typeUnion = true := rfl
@[simp] theorem connected_typeUnion : Connected c .typeUnion cs = True := rfl
@[simp] theorem flat_typeUnion_plain : (Node.node .typeUnion cs).flat = cs.flatMap Node.flat := Node.flat_plain rfl cs
@[simp] theorem available_typeIntersection : available c .typeIntersection = true := rfl
@[simp] theorem connected_typeIntersection : Connected c .typeIntersection cs = True := rfl
@[simp] theorem flat_typeIntersection_plain : (Node.node .typeIntersection cs).flat = cs.flatMap Node.flat := Node.flat_plain rfl cs
@[simp] theorem available_idxBasic : available c .idxBasic = true := rfl
@[simp] theorem connected_idxBasic : Connected c .idxBasic cs = True := rfl
@[simp] theorem flat_idxBasic_plain : (Node.node .idxBasic cs).flat = cs.flatMap Node.flat := Node.flat_plain rfl cs
@[simp] theorem available_idxGeneric : available c .idxGeneric = true := rfl
@[simp] theorem connected_idxGeneric : Connected c .idxGeneric cs = True := rfl
@[simp] theorem available_typeField : available c .typeField = true := rfl
@[simp] theorem connected_typeField : Connected c .typeField cs = True := rfl
@[simp] theorem flat_typeField_plain : (Node.node .typeField cs).flat = cs.flatMap Node.flat := Node.flat_plain rfl cs
@[simp] theorem available_keyName : available c .keyName = true := rfl
@[simp] theorem connected_keyName : Connected c .keyName cs = True := rfl
@[simp] theorem flat_keyName_plain : (Node.node .keyName cs).flat = cs.flatMap Node.flat := Node.flat_plain rfl cs
@[simp] theorem available_keyIndex : available c .keyIndex = true := rfl
@[simp] theorem connected_keyIndex : Connected c .keyIndex cs = True := rfl
@[simp] theorem available_typeAssertion : available c .typeAssertion = true := rfl
@[simp] theorem connected_typeAssertion : Connected c .typeAssertion cs = True := rfl
@[simp] theorem flat_typeAssertion_plain : (Node.node .typeAssertion cs).flat = cs.flatMap Node.flat := Node.flat_plain rfl cs
@[simp] theorem available_typeDecl : available c .typeDecl = true := rfl
@[simp] theorem connected_typeDecl : Connected c .typeDecl cs = True := rfl
@[simp] theorem flat_typeDecl_plain : (Node.node .typeDecl cs).flat = cs.flatMap Node.flat := Node.flat_plain rfl cs
@[simp] theorem available_genericName : available c .genericName = true := rfl
@[simp] theorem connected_genericName : Connected c .genericName cs = True := rfl
@[simp] theorem flat_genericName_plain : (Node.node .genericName cs).flat = cs.flatMap Node.flat := Node.flat_plain rfl cs
@[simp] theorem available_genericVariadic : available c .genericVariadic = true := rfl
@[simp] theorem connected_genericVariadic : Connected c .genericVariadic cs = True := rfl
@[simp] theorem flat_genericVariadic_plain : (Node.node .genericVariadic cs).flat = cs.flatMap Node.flat := Node.flat_plain rfl cs
@[simp] theorem available_genericDeclParam : available c .genericDeclParam = true := rfl
@[simp] theorem connected_genericDeclParam : Connected c .genericDeclParam cs = True := rfl
@[simp] theorem flat_genericDeclParam_plain : (Node.node .genericDeclParam cs).flat = cs.flatMap Node.flat := Node.flat_plain rfl cs
@[simp] theorem available_genericDecl : available c .genericDecl = c.luau := rfl
@[simp] theorem connected_genericDecl : Connected c .genericDecl cs = True := rfl
@[simp] theorem available_typeSpec : available c .typeSpec = c.luau := rfl
@[simp] theorem connected_typeSpec : Connected c .typeSpec cs = True := rfl
@[simp] theorem flat_typeSpec_plain : (Node.node .typeSpec cs).flat = cs.flatMap Node.flat := Node.flat_plain rfl cs
@[simp] theorem available_typeArg : available c .typeArg = true := rfl
@[simp] theorem connected_typeArg : Connected c .typeArg cs = True := rfl
@[simp] theorem flat_typeArg_plain : (Node.node .typeArg cs).flat = cs.flatMap Node.flat := Node.flat_plain rfl cs
@[simp] theorem available_exportedTypeDecl : available c .exportedTypeDecl = true := rfl
@[simp] theorem connected_exportedTypeDecl : Connected c .exportedTypeDecl cs = True := rfl
@[simp] theorem flat_exportedTypeDecl_plain : (Node.node .exportedTypeDecl cs).flat = cs.flatMap Node.flat := Node.flat_plain rfl cs
@[simp] theorem available_typeFunction : available c .typeFunction = true := rfl
@[simp] theorem connected_typeFunction : Connected c .typeFunction cs = True := rfl
@[simp] theorem flat_typeFunction_plain : (Node.node .typeFunction cs).flat = cs.flatMap Node.flat := Node.flat_plain rfl cs
@[simp] theorem available_exportedTypeFunction : available c .exportedTypeFunction = true := rfl
@[simp] theorem connected_exportedTypeFunction : Connected c .exportedTypeFunction cs = True := rfl
@[simp] theorem flat_exportedTypeFunction_plain : (Node.node .exportedTypeFunction cs).flat = cs.flatMap Node.flat := Node.flat_plain rfl cs
@[simp] theorem available_ifExpr : available c .ifExpr = true := rfl
@[simp] theorem connected_ifExpr : Connected c .ifExpr cs = True := rfl
@[simp] theorem flat_ifExpr_plain : (Node.node .ifExpr cs).flat = cs.flatMap Node.flat := Node.flat_plain rfl cs
@[simp] theorem available_elseIfExpr : available c .elseIfExpr = true := rfl
@[simp] theorem connected_elseIfExpr : Connected c .elseIfExpr cs = True := rfl
@[simp] theorem flat_elseIfExpr_plain : (Node.node .elseIfExpr cs).flat = cs.flatMap Node.flat := Node.flat_plain rfl cs
@[simp] theorem available_interpString : available c .interpString = true := rfl
@[simp] theorem flat_interpString_plain : (Node.node .interpString cs).flat = cs.flatMap Node.flat := Node.flat_plain rfl cs
@[simp] theorem available_interpSegment : available c .interpSegment = true := rfl
@[simp] theorem connected_interpSegment : Connected c .interpSegment cs = True := rfl
@[simp] theorem flat_interpSegment_plain : (Node.node .interpSegment cs).flat = cs.flatMap Node.flat := Node.flat_plain rfl cs
@[simp] theorem connected_luauAttr : Connected c .luauAttr cs = True := rfl
@[simp] theorem flat_luauAttr_plain : (Node.node .luauAttr cs).flat = cs.flatMap Node.flat := Node.flat_plain rfl cs
@[simp] theorem available_typeInst : available c .typeInst = c.luau := rfl
@[simp] theorem connected_typeInst : Connected c .typeInst cs = True := rfl
@[simp] theorem flat_tableCtor_wrap (o e : TokRef) (x : Node) :
    (Node.node .tableCtor [.spanOf (.tok o) (.tok e), x]).flat = o :: (x.flat ++ [e]) := flat_wrap rfl o e x
@[simp] theorem flat_exprParens_wrap (o e : TokRef) (x : Node) :
    (Node.node .exprParens [.spanOf (.tok o) (.tok e), x]).flat = o :: (x.flat ++ [e]) := flat_wrap rfl o e x
@[simp] theorem flat_indexBrackets_wrap (o e : TokRef) (x : Node) :
    (Node.node .indexBrackets [.spanOf (.tok o) (.tok e), x]).flat = o :: (x.flat ++ [e]) := flat_wrap rfl o e x
@[simp] theorem flat_argsParens_wrap (o e : TokRef) (x : Node) :
    (Node.node .argsParens [.spanOf (.tok o) (.tok e), x]).flat = o :: (x.flat ++ [e]) := flat_wrap rfl o e x
@[simp] theorem flat_attribute_wrap (o e : TokRef) (x : Node) :
    (Node.node .attribute [.spanOf (.tok o) (.tok e), x]).flat = o :: (x.flat ++ [e]) := flat_wrap rfl o e x
@[simp] theorem flat_genericDecl_wrap (o e : TokRef) (x : Node) :
    (Node.node .genericDecl [.spanOf (.tok o) (.tok e), x]).flat = o :: (x.flat ++ [e]) := flat_wrap rfl o e x
@[simp] theorem flat_tyTable_wrap (o e : TokRef) (x : Node) :
    (Node.node .tyTable [.spanOf (.tok o) (.tok e), x]).flat = o :: (x.flat ++ [e]) := flat_wrap rfl o e x
@[simp] theorem flat_tyTuple_wrap (o e : TokRef) (x : Node) :
    (Node.node .tyTuple [.spanOf (.tok o) (.tok e), x]).flat = o :: (x.flat ++ [e]) := flat_wrap rfl o e x
@[simp] theorem flat_keyIndex_wrap (o e : TokRef) (x : Node) :
    (Node.node .keyIndex [.spanOf (.tok o) (.tok e), x]).flat = o :: (x.flat ++ [e]) := flat_wrap rfl o e x
@[simp] theorem flat_tyGeneric_wrap (b : Node) (o e : TokRef) (x : Node) :
    (Node.node .tyGeneric [b, .spanOf (.tok o) (.tok e), x]).flat = b.flat ++ o :: (x.flat ++ [e]) := flat_wrapSecond rfl b o e x
@[simp] theorem flat_idxGeneric_wrap (b : Node) (o e : TokRef) (x : Node) :
    (Node.node .idxGeneric [b, .spanOf (.tok o) (.tok e), x]).flat = b.flat ++ o :: (x.flat ++ [e]) := flat_wrapSecond rfl b o e x
@[simp] theorem flat_tyTypeof_wrap (b : Node) (o e : TokRef) (x : Node) :
    (Node.node .tyTypeof [b, .spanOf (.tok o) (.tok e), x]).flat = b.flat ++ o :: (x.flat ++ [e]) := flat_wrapSecond rfl b o e x

end FM.Parser
