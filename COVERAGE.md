# Coverage of the code and axioms of the theorems

Generated by `tools/mkdocs.py`.

## Functions with a counterpart in the model

| function | lines | definitions in lean/Verif/Model |
|---|---|---|
| `bnb_sys` | bnb_fns.py:6-68 | `BnbOld.SysOut`, `BnbOld.PathInfo`, `BnbOld.argsort`, `BnbOld.bnbSys` |
| `bnb_next_comp` | bnb_fns.py:71-113 | `BnbOld.appendNew`, `BnbOld.bnbNextComp` |
| `bnb_next_state` | bnb_fns.py:116-120 | `BnbOld.bnbNextState` |
| `approx_prob_by_comps` | branch.py:26-33 | `Brc.rangeProb`, `Brc.approxProb`, `BrcRound.Arith`, `BrcRound.Arith.exact`, `BrcRound.Arith.ofRound`, `BrcRound.roundEven`, `BrcRound.ulpExp`, `BrcRound.float64`, `BrcRound.Arith.prod`, `BrcRound.rangeProbR`, `BrcRound.approxProbR`, `Objects.objFactor`, `Objects.BrObj.approxProb` |
| `Branch.__init__` | branch.py:38-48 | `Brc.St`, `Brc.Branch`, `Objects.BrObj`, `Objects.BrObj.new` |
| `Branch.__eq__` | branch.py:62-69 | `Objects.BrObj.eq` |
| `Branch.approx_prob` | branch.py:71-72 | `Objects.BrObj.approxProb` |
| `Branch.get_compat_rules` | branch.py:75-102 | `Brc.Branch.compatRules`, `Brc.checkKeys` |
| `Branch.eval_state` | branch.py:104-145 | `Brc.evalLoop`, `Brc.Branch.evalState` |
| `Branch.approx_joint_prob_compat_rule` | branch.py:148-161 | `Brc.rangeProb`, `Brc.Branch.jointProb`, `BrcRound.Arith`, `BrcRound.Arith.exact`, `BrcRound.Arith.ofRound`, `BrcRound.roundEven`, `BrcRound.ulpExp`, `BrcRound.float64`, `BrcRound.Arith.prod`, `BrcRound.rangeProbR`, `BrcRound.Branch.jointProbR` |
| `Branch.get_decomp_comp_using_probs` | branch.py:164-196 | `Brc.mostCommon`, `Brc.cutState`, `Brc.Branch.tryComp`, `Brc.Branch.decompComp`, `Brc.Rules.count`, `BrcRound.Branch.decompCompR` |
| `Branch.get_new_branch` | branch.py:198-221 | `Brc.Branch.newBranch`, `BrcRound.Branch.newBranchR` |
| `Branch.get_c` | branch.py:223-249 | `Csys.dictGet`, `Csys.getCLoop`, `Csys.Branch.getC` |
| `Branch.to_dict` | branch.py:252-253 | `Objects.BrVal`, `Objects.BrObj.toDict` |
| `Branch.from_dict` | branch.py:256-257 | `Objects.BrObj.fromDict` |
| `Branch_old.__init__` | branch.py:275-295 | `BnbOld.OldBranch`, `BnbOld.OldBranch.new` |
| `Branch_old.__repr__` | branch.py:301-303 | `BnbOld.OldBranch` |
| `Branch_old.__eq__` | branch.py:305-315 | `BnbOld.OldBranch` |
| `get_cmat` | branch.py:318-386 | `BnbOld.oldCol`, `BnbOld.oldCmat` |
| `get_idx` | branch.py:389-393 | `BnbOld.getIdxFrom` |
| `run_bnb` | branch.py:396-467 | `BnbOld.candComps`, `BnbOld.oldLoop`, `BnbOld.runBnb` |
| `get_sb_saved_from_job` | branch.py:470-487 | `Bnb.dumpPrefix`, `Bnb.globMatch`, `Bnb.sbSaved` |
| `get_bstars_from_sb_dump` | branch.py:490-497 | `Bnb.bstarsDump` |
| `get_sb_saved_from_sb_dump` | branch.py:500-507 | `Bnb.sbSavedDump` |
| `split` | branch.py:510-513 | `Estimate.pySplit` |
| `branch_and_bound` | branch.py:516-543 | `Bnb.Dir`, `Bnb.Dir.write`, `Bnb.dumpPrefix`, `Bnb.dumpName`, `Bnb.bnbLoop`, `Bnb.branchAndBound` |
| `bnb_core` | branch.py:546-559 | `Bnb.bnbCore` |
| `get_arcs_given_bstar` | branch.py:562-577 | `Bnb.BBranch`, `Bnb.freeArcs`, `Bnb.arcsLoop`, `Bnb.getArcs` |
| `get_arcs_given_bstar_nobreak` | branch.py:580-590 | `BnbOrg.firstPath`, `BnbOrg.getArcsNobreak` |
| `create_arc_state_given_cond` | branch.py:593-601 | `Bnb.setArc` |
| `get_set_of_branches` | branch.py:623-645 | `Bnb.setLoop`, `Bnb.getSetOfBranches` |
| `branch_and_bound_org` | branch.py:647-721 | `BnbOrg.firstPath`, `BnbOrg.OrgSt`, `BnbOrg.orgArcs`, `BnbOrg.orgAppend`, `BnbOrg.orgBranch`, `BnbOrg.orgLoop`, `BnbOrg.branchAndBoundOrg` |
| `get_cmat_from_branches` | branch.py:724-748 | `Bnb.tableGet`, `Bnb.tableIndex`, `Bnb.cmatRow`, `Bnb.cmatFromBranches` |
| `mcs_unknown_using_cpms` | branch.py:751-860 | `Mcs.searchRight`, `Mcs.npChoice`, `Mcs.McsCfg`, `Mcs.McsCfg.brsU`, `Mcs.McsCfg.pfLow`, `Mcs.McsCfg.pU`, `Mcs.drawComp`, `Mcs.drawSample`, `Mcs.sampleFn`, `Mcs.McsState`, `Mcs.mcsEstimate`, `Mcs.mcsStep`, `Mcs.mcsGoOn`, `Mcs.mcsLoop`, `Mcs.mcsRun`, `Mcs.setColumn`, `Mcs.allocLoop`, `Mcs.csysRows`, `Mcs.mcsUnknownUsingCpms` |
| `mcs_unknown_simple` | branch.py:862-941 | `Mcs.searchRight`, `Mcs.npChoice`, `Mcs.McsCfg`, `Mcs.McsCfg.brsU`, `Mcs.McsCfg.pfLow`, `Mcs.McsCfg.pU`, `Mcs.drawComp`, `Mcs.drawSample`, `Mcs.sampleFn`, `Mcs.McsState`, `Mcs.mcsEstimate`, `Mcs.mcsStep`, `Mcs.mcsGoOn`, `Mcs.mcsLoop`, `Mcs.mcsRun`, `Mcs.mcsUnknownSimple` |
| `run` | brc.py:17-123 | `Brc.OutFlag`, `Brc.RunCfg`, `Brc.RunState`, `Brc.RunCfg.startBrs`, `Brc.RunCfg.rulesFull`, `Brc.runStep`, `Brc.runLoop`, `Brc.run`, `BrcObs.ObsState`, `BrcObs.Monitor.addSf`, `BrcObs.Monitor.setFlag`, `BrcObs.displayEvery`, `BrcObs.obsEval`, `BrcObs.ObsState.stop`, `BrcObs.obsIter`, `BrcObs.obsLoop`, `BrcObs.ObsOut`, `BrcObs.obsFinish`, `BrcObs.obsInit`, `BrcObs.obsRun`, `BrcRound.runStepR`, `BrcRound.runLoopR`, `BrcRound.runR` |
| `init_monitor` | brc.py:127-155 | `BrcObs.Monitor`, `BrcObs.Ctrl`, `BrcObs.initMonitor` |
| `update_monitor` | brc.py:158-207 | `Brc.MonRow`, `Brc.monRow`, `BrcObs.lastOf`, `BrcObs.rfLengths`, `BrcObs.updateMonitor`, `BrcRound.monRowR` |
| `display_msg` | brc.py:210-221 | `BrcObs.displayMsg` |
| `plot_monitoring` | brc.py:224-253 | `BrcObs.plotMonitoring` |
| `get_csys` | brc.py:256-266 | `Csys.getCsysLoop`, `Csys.getCsys` |
| `get_state` | brc.py:269-303 | `Brc.St`, `Brc.Rule`, `Brc.Rules`, `Brc.meetsS`, `Brc.meetsF`, `Brc.getState`, `Brc.checkKeys` |
| `update_rule_set` | brc.py:306-344 | `Brc.implS`, `Brc.implF`, `Brc.dictEq`, `Brc.updateLoop`, `Brc.updateRuleSet` |
| `run_sys_fn` | brc.py:347-372 | `Brc.SysRes`, `Brc.runSysFn`, `BrcObs.SysRow`, `Conn.connSysFun`, `Flow.flowSysFun`, `Pipes.pipesSysFun` |
| `init_branch` | brc.py:375-386 | `Brc.topState`, `Brc.initBranch` |
| `decomp_depth_first` | brc.py:389-444 | `Brc.Branch.specified`, `Brc.decompPass`, `Brc.decompLoop`, `Brc.Branch.size`, `Brc.decomp`, `BrcObs.passVisited`, `BrcObs.labelledBrs`, `BrcRound.decompPassR`, `BrcRound.decompLoopR`, `BrcRound.decompR` |
| `get_comp_st` | brc.py:447-494 | `Brc.compStLoop`, `Brc.getCompSt`, `BrcRound.compStLoopR`, `BrcRound.getCompStR` |
| `run_MCS_indep_comps` | brc.py:497-523 | `McsIndep.IndepCfg`, `McsIndep.indepDraw`, `McsIndep.IndepState`, `McsIndep.indepUpdate`, `McsIndep.indepStep`, `McsIndep.indepLoop`, `McsIndep.runMcsIndep` |
| `eval_rules_prob` | brc.py:525-549 | `Brc.evalRulesProb` |
| `Config.__init__` | config.py:47-85 | `Config.CfgKey`, `Config.CfgVal`, `Config.FileC`, `Config.Disk`, `Config.Cfg`, `Config.CfgVal.truthy`, `Config.cfgPath`, `Config.Disk.exists`, `Config.readScenarioFile`, `Config.cfgPop`, `Config.cfgScenarios`, `Config.Disk.ensureDir`, `Config.Cfg.new`, `FlowMain.modelPath` |
| `read_model_from_json` | config.py:88-131 | `Config.FileC`, `Config.Disk.open`, `Config.readModelFile`, `Paths.GType`, `Paths.addNode`, `Paths.addConn`, `Paths.emptyGraph`, `Paths.readModel` |
| `read_scenarios_from_json` | config.py:134-140 | `Config.FileC`, `Config.readScenarioFile` |
| `convert_csv_to_json` | config.py:143-153 | `Files.itemsUpdate`, `Files.csvToJson` |
| `dict_to_json` | config.py:156-182 | `Files.dictToJson` |
| `Cpm.__init__` | cpm.py:36-45 | `Cpm.Cpm`, `Cpm.pyAssert`, `Cpm.Cpm.mk'`, `CpmEdit.Cpm.initBy` |
| `Cpm.variables` | cpm.py:48-49 | `Cpm.Cpm`, `Cpm.pyAssert`, `Cpm.Cpm.mk'` |
| `Cpm.variables` | cpm.py:52-55 | `Basic.Err`, `Cpm.Cpm`, `Cpm.pyAssert`, `Cpm.Cpm.mk'`, `CpmEdit.CpmOp`, `CpmEdit.Cpm.assign`, `CpmEdit.Cpm.edit` |
| `Cpm.no_child` | cpm.py:58-59 | `Basic.Err`, `Cpm.Cpm`, `Cpm.pyAssert`, `Cpm.Cpm.mk'`, `CpmEdit.CpmOp`, `CpmEdit.Cpm.edit` |
| `Cpm.no_child` | cpm.py:62-65 | `Basic.Err`, `Cpm.Cpm`, `Cpm.pyAssert`, `Cpm.Cpm.mk'`, `CpmEdit.CpmOp`, `CpmEdit.Cpm.edit` |
| `Cpm.C` | cpm.py:68-69 | `Basic.Err`, `Cpm.Cpm`, `Cpm.pyAssert`, `Cpm.Cpm.mk'`, `CpmEdit.CpmOp`, `CpmEdit.Cpm.edit` |
| `Cpm.C` | cpm.py:72-88 | `Basic.Err`, `Cpm.Cpm`, `Cpm.checkC`, `Cpm.pyAssert`, `Cpm.Cpm.mk'`, `CpmEdit.Arr`, `CpmEdit.Arr.rows`, `CpmEdit.checkVec`, `CpmEdit.checkArrC`, `CpmEdit.CpmOp`, `CpmEdit.Cpm.edit` |
| `Cpm.p` | cpm.py:91-92 | `Basic.Err`, `Cpm.Cpm`, `Cpm.pyAssert`, `Cpm.Cpm.mk'`, `CpmEdit.CpmOp`, `CpmEdit.Cpm.edit` |
| `Cpm.p` | cpm.py:95-107 | `Basic.Err`, `Cpm.Cpm`, `Cpm.pyAssert`, `Cpm.Cpm.mk'`, `CpmEdit.CpmOp`, `CpmEdit.Cpm.edit` |
| `Cpm.Cs` | cpm.py:110-111 | `Cpm.Cpm`, `Cpm.pyAssert`, `Cpm.Cpm.mk'`, `CpmEdit.CpmOp`, `CpmEdit.Cpm.edit` |
| `Cpm.Cs` | cpm.py:114-128 | `Cpm.Cpm`, `Cpm.checkCs`, `Cpm.pyAssert`, `Cpm.Cpm.mk'`, `CpmEdit.Arr`, `CpmEdit.Arr.rows`, `CpmEdit.checkVec`, `CpmEdit.checkArrCs`, `CpmEdit.CpmOp`, `CpmEdit.Cpm.edit`, `Mcs.setColumn` |
| `Cpm.q` | cpm.py:131-132 | `Cpm.Cpm`, `Cpm.pyAssert`, `Cpm.Cpm.mk'`, `CpmEdit.CpmOp`, `CpmEdit.Cpm.edit`, `Mcs.setColumn` |
| `Cpm.q` | cpm.py:135-148 | `Cpm.Cpm`, `Cpm.pyAssert`, `Cpm.Cpm.mk'`, `CpmEdit.CpmOp`, `CpmEdit.Cpm.edit`, `Mcs.setColumn` |
| `Cpm.ps` | cpm.py:151-152 | `Cpm.Cpm`, `Cpm.pyAssert`, `Cpm.Cpm.mk'`, `CpmEdit.CpmOp`, `CpmEdit.Cpm.edit`, `Mcs.setColumn` |
| `Cpm.ps` | cpm.py:155-167 | `Cpm.Cpm`, `Cpm.pyAssert`, `Cpm.Cpm.mk'`, `CpmEdit.CpmOp`, `CpmEdit.Cpm.edit`, `Mcs.setColumn` |
| `Cpm.sample_idx` | cpm.py:170-171 | `Cpm.Cpm`, `Cpm.pyAssert`, `Cpm.Cpm.mk'`, `CpmEdit.CpmOp`, `CpmEdit.Cpm.edit`, `Mcs.setColumn` |
| `Cpm.sample_idx` | cpm.py:174-186 | `Cpm.Cpm`, `Cpm.pyAssert`, `Cpm.Cpm.mk'`, `CpmEdit.CpmOp`, `CpmEdit.Cpm.edit`, `Mcs.setColumn` |
| `Cpm.get_variables` | cpm.py:192-197 | `Cpm.Cpm.getVariables` |
| `Cpm.get_names` | cpm.py:200-201 | `Cpm.Cpm.getNames` |
| `Cpm.get_subset` | cpm.py:204-270 | `Cpm.takeRows`, `Cpm.takeRowsOpt`, `Cpm.subsetRows`, `Cpm.Cpm.getSubset`, `Cpm.Cpm.getSubsetCs` |
| `Cpm.get_means` | cpm.py:273-286 | `Basic.pyIndex`, `Cpm.column`, `Cpm.Cpm.getMeans` |
| `Cpm.iscompatible` | cpm.py:289-382 | `Cpm.compatTable`, `Cpm.Cpm.isCompatibleM` |
| `Cpm.get_col_ind` | cpm.py:385-397 | `Basic.pyIndex`, `Cpm.Cpm.getColInd` |
| `Cpm.get_col` | cpm.py:399-411 | `Cpm.takeCols`, `Cpm.Cpm.getCol` |
| `Cpm.merge` | cpm.py:415-436 | `Cpm.Cpm.merge`, `ElimCondRound.Cpm.mergeR` |
| `Cpm.sum` | cpm.py:439-519 | `Cpm.whereTrue`, `Cpm.maskRows`, `Cpm.sumLoop`, `Cpm.sumRemain`, `Cpm.sumBody`, `Cpm.Cpm.sum`, `CpmNames.Cpm.resolve`, `CpmNames.Cpm.sumQ`, `CpmRound.sumLoopR`, `CpmRound.sumBodyR`, `CpmRound.Cpm.sumR` |
| `Cpm.get_prob` | cpm.py:522-557 | `Basic.pyIndex`, `Cpm.Cpm.getProb`, `CpmNames.QVars`, `CpmNames.Cpm.resolve`, `CpmNames.labelIndices`, `CpmNames.numbers`, `CpmNames.Cpm.getProbQ`, `CpmRound.Cpm.getProbR` |
| `Cpm.condition` | cpm.py:560-646 | `Basic.pyIndex`, `Basic.pyGet`, `Cpm.condColumn`, `Cpm.setCol`, `Cpm.Cpm.condition`, `CpmNames.QVars`, `CpmNames.QState`, `CpmNames.QState.value`, `CpmNames.Cpm.resolve`, `CpmNames.condColumnQ`, `CpmNames.sampleStates`, `CpmNames.Cpm.conditionRest`, `CpmNames.condStates`, `CpmNames.Cpm.conditionQ` |
| `Cpm.product` | cpm.py:649-773 | `Cpm.productSamples`, `Cpm.productRows`, `Cpm.productCore`, `Cpm.Cpm.product`, `CpmRound.productRowsR`, `CpmRound.productCoreR`, `CpmRound.Cpm.productR` |
| `Cpm.sort` | cpm.py:776-792 | `Cpm.Cpm.sort` |
| `Cpm.get_prob_bnd` | cpm.py:795-811 | `Cpm.Cpm.getProbBnd`, `CpmNames.QVars.isNil`, `CpmNames.Cpm.getProbBndQ`, `CpmRound.Cpm.getProbBndR`, `CpmRound.Cpm.getProbBndCondR` |
| `Cpm.get_prob_and_cov` | cpm.py:814-895 | `Estimate.estRounds`, `Estimate.rowRange`, `Estimate.sampleRows`, `Estimate.roundWeights`, `Estimate.zeroAt`, `Estimate.allclose`, `Estimate.estWeights`, `Estimate.mleRound`, `Estimate.Cpm.estimateMle`, `Estimate.nEff`, `Estimate.nTrue`, `Estimate.bayesRound`, `Estimate.Cpm.estimateBayes` |
| `Cpm.get_prob_and_cov_cond` | cpm.py:898-950 | `Estimate.estRounds`, `Estimate.rowRange`, `Estimate.zeroAt`, `Estimate.nEff`, `Estimate.nTrue`, `Estimate.condRound`, `Estimate.Cpm.estimateCond` |
| `argsort` | cpm.py:953-956 | `Cpm.argsortOn` |
| `ismember` | cpm.py:959-997 | `Cpm.ismemberOn` |
| `setdiff` | cpm.py:1000-1008 | `Cpm.firstOccOn`, `Cpm.setdiffOn` |
| `get_value_given_condn` | cpm.py:1011-1022 | `Cpm.getValueGivenCondn` |
| `iscompatible` | cpm.py:1025-1074 | `Cpm.compatStep`, `Cpm.isCompatible`, `CpmNames.QVars`, `CpmNames.resolveIn`, `CpmNames.stateIndex`, `CpmNames.isCompatibleQ` |
| `flip` | cpm.py:1077-1082 | `Cpm.flip` |
| `product` | cpm.py:1085-1102 | `Cpm.productList`, `CpmRound.productListR` |
| `get_prod` | cpm.py:1105-1121 | `LogProd.logProdVal`, `LogProd.getProdEntry`, `LogProd.getProd` |
| `setup_model` | model.py:9-29 | `Paths.setupModel` |
| `get_branches_by_od` | model.py:32-60 | `ByOd.delayVariable`, `ByOd.uniformProbs`, `ByOd.intactState`, `ByOd.stBrToCs`, `ByOd.branchesOfOd`, `ByOd.byOdLoop`, `ByOd.getBranchesByOd` |
| `get_branches` | model.py:63-88 | `ModelPy.timeGe`, `ModelPy.odValues`, `ModelPy.getBranchesOne`, `ModelPy.getBranches`, `Paths.pathsOf` |
| `model_given_od_scen` | model.py:91-124 | `ModelPy.getBranches`, `ModelPy.itemSet`, `ModelPy.itemGet`, `ModelPy.odVariable`, `ModelPy.arcCpm`, `ModelPy.modelGivenOd` |
| `compute_prob` | model.py:127-151 | `ModelPy.computeProb` |
| `condition` | operation.py:17-58 | `Observe.conditionAllQ`, `Operation.conditionAll` |
| `get_var_idx` | operation.py:61-77 | `Operation.getVarIdx` |
| `get_prod_idx` | operation.py:80-108 | `Operation.getProdIdx` |
| `get_sample_order` | operation.py:111-150 | `Operation.SampleOrder`, `Operation.sampleStep`, `Operation.getSampleOrder` |
| `mcs_product` | operation.py:153-193 | `Operation.mcsProduct`, `Operation.mcsProductVec` |
| `single_sample` | operation.py:196-254 | `Operation.assignAt`, `Operation.sampleOne`, `Operation.sampleLoop`, `Operation.singleSample` |
| `rejection_sampling_sys` | operation.py:257-402 | `Reject.RejCfg`, `Reject.cpmsNoSys`, `Reject.RejState`, `Reject.rejGoOn`, `Reject.rejAccept`, `Reject.rejIter`, `Reject.rejLoop`, `Reject.rejLoc`, `Reject.rejectionSamplingSys` |
| `isinscope` | operation.py:405-423 | `Operation.inScope`, `Operation.isInScope` |
| `variable_elim` | operation.py:426-453 | `CpmRound.elimStepR`, `CpmRound.variableElimListR`, `CpmRound.variableElimR`, `Operation.elimStep`, `Operation.variableElimList`, `Operation.variableElim` |
| `variable_elim_cond` | operation.py:456-511 | `ElimCondRound.elimCondRowR`, `ElimCondRound.elimCondLoopR`, `ElimCondRound.variableElimCondR`, `Operation.elimCondRow`, `Operation.elimCondLoop`, `Operation.variableElimCond` |
| `get_variables` | operation.py:514-539 | `Operation.collectVars`, `Operation.collectAll`, `Operation.getVariablesAll` |
| `prod_Msys_and_Mcomps` | operation.py:562-654 | `CondVERound.compProbR`, `CondVERound.prodMsysMcompsR`, `MsysSamples.dropTable`, `MsysSamples.samplesStep`, `MsysSamples.msysSamples`, `MsysSamples.prodMsysMcompsS`, `Operation.compProb`, `Operation.splitParents`, `Operation.condScope`, `Operation.prodMsysMcomps` |
| `get_inf_vars` | operation.py:657-696 | `Operation.infLoop`, `Operation.getInfVars` |
| `cal_Msys_by_cond_VE` | operation.py:699-751 | `CondVE.assocGet`, `CondVE.joinComps`, `CondVE.condVERow`, `CondVE.condVELoop`, `CondVE.veNames`, `CondVE.jntNames`, `CondVE.elmNames`, `CondVE.calMsysByCondVE`, `CondVERound.joinCompsR`, `CondVERound.condVERowR`, `CondVERound.condVELoopR`, `CondVERound.calMsysByCondVER` |
| `sys_max_val` | operation.py:755-817 | `Operation.valueSet`, `Operation.sysRow`, `Operation.sysRowsOf`, `Operation.sysRowsAll`, `Operation.sysVal`, `Operation.sysMaxVal` |
| `sys_min_val` | operation.py:820-884 | `Operation.valueSet`, `Operation.sysVal`, `Operation.sysMinVal` |
| `max_flow` | operation.py:886-941 | `Flow.FlowLib`, `Flow.addEdge`, `Flow.flowEdge`, `Flow.flowRule`, `Flow.maxFlow`, `Flow.flowSysFun` |
| `do_node` | pipes_sys.py:6-26 | `Pipes.setEntry`, `Pipes.setSome`, `Pipes.coefOut`, `Pipes.fillAll`, `Pipes.zeros`, `Pipes.doNode` |
| `do_sub` | pipes_sys.py:29-72 | `Pipes.coefIn`, `Pipes.coefNet`, `Pipes.fillSub`, `Pipes.subNode`, `Pipes.totalRow`, `Pipes.doSub1`, `Pipes.doSub` |
| `do_incoming` | pipes_sys.py:75-93 | `Pipes.setSome`, `Pipes.coefNet`, `Pipes.fillAll`, `Pipes.doIncoming` |
| `do_capacity` | pipes_sys.py:96-113 | `Pipes.setEntry`, `Pipes.arcCap`, `Pipes.doCapacity` |
| `run_pipes_fun` | pipes_sys.py:116-162 | `Pipes.runPipesFun` |
| `sys_fun_pipes` | pipes_sys.py:165-201 | `Pipes.addState`, `Pipes.pipeRule`, `Pipes.sysFunPipes`, `Pipes.pipesSysFun` |
| `sys_fun_wrap` | trans.py:56-60 | `Trans.sysFunWrap` |
| `sf_min_path` | trans.py:63-106 | `PfNode.nodeSysFun`, `Trans.PathLib`, `Trans.OdArg`, `Trans.minStep`, `Trans.minComps`, `Trans.sfMinPath` |
| `get_connectivity_given_comps` | trans.py:109-140 | `Basic.Err`, `PfMain.pfMcs`, `Trans.PathLib`, `Trans.connectivity` |
| `get_edge_from_nodes` | trans.py:143-156 | `Trans.NGraph.between`, `Trans.edgeFromNodes` |
| `update_G_given_comps_st` | trans.py:159-205 | `Trans.itemsGet`, `Trans.edgeWeight`, `Trans.setKey0`, `Trans.setWeights`, `Trans.removeEdge`, `Trans.removeFailed`, `Trans.updateG` |
| `get_time_and_path_given_comps` | trans.py:208-224 | `Trans.PathLib`, `Trans.updateG`, `Trans.timeAndPath` |
| `get_time_and_path_multi_dest` | trans.py:227-248 | `Trans.PathLib`, `Trans.timeAndPath`, `Trans.timeAndPathMulti` |
| `get_all_paths_and_times` | trans.py:251-269 | `Paths.SimplePathLib`, `Paths.stepEdge`, `Paths.pathEntry`, `Paths.appendTo`, `Paths.getAllPaths`, `Trans.PathLib`, `Trans.timeAndPathMulti` |
| `get_path_time_idx` | trans.py:272-300 | `Bnb.PathRow`, `Bnb.isClose`, `Bnb.timeIdx`, `Bnb.getPathTimeIdx` |
| `get_arcs_length` | trans.py:303-324 | `Files.arcLength`, `Files.arcsLength` |
| `eval_sys_state_given_arc` | trans.py:327-346 | `Bnb.arcGet`, `Bnb.pathSurvives`, `Bnb.evalPaths`, `Bnb.evalSysState` |
| `eval_sys_state` | trans.py:349-365 | `Bnb.evalSysState` |
| `get_node_conn_df` | trans.py:368-386 | `Files.nodeConn` |
| `create_model_json_for_graph_network` | trans.py:389-431 | `Files.NetDict`, `Files.createGraph` |
| `create_model_json_for_tranportation_network` | trans.py:434-470 | `CreateModel.Disk.put`, `Files.NetDict`, `Files.createTransport` |
| `create_scenario_json_for_trans_network` | trans.py:473-492 | `CreateModel.Disk.put`, `CreateModel.scenarioTrans` |
| `create_scenario_json_for_tranportation_network` | trans.py:495-524 | `Files.createScenario` |
| `all_equal` | utils.py:11-14 | `Estimate.allEqual` |
| `read_nodes` | utils.py:17-21 | `Files.readNodes` |
| `get_rat_dist` | utils.py:24-57 | `Estimate.percentile`, `Estimate.ratio`, `Estimate.getRatDist` |
| `Variable.__init__` | variable.py:76-88 | `Objects.VObj`, `Objects.VHeap`, `Objects.VHeap.start`, `Objects.VHeap.view`, `Objects.VOp`, `Objects.VHeap.step`, `Variable.Variable`, `Variable.storesB`, `Variable.Variable.mk'` |
| `Variable.B` | variable.py:91-92 | `Objects.VObj`, `Objects.VHeap`, `Objects.VHeap.view`, `Objects.VOp`, `Objects.VHeap.step`, `Variable.Variable` |
| `Variable.B` | variable.py:95-96 | `Objects.VObj`, `Objects.VHeap`, `Objects.VHeap.view`, `Objects.VOp`, `Objects.VHeap.step`, `Variable.Variable` |
| `Variable.values` | variable.py:99-100 | `Objects.VObj`, `Objects.VHeap`, `Objects.VHeap.view`, `Objects.VOp`, `Objects.VHeap.step`, `Variable.Variable` |
| `Variable.values` | variable.py:103-107 | `Objects.VObj`, `Objects.VHeap`, `Objects.VHeap.view`, `Objects.VOp`, `Objects.VHeap.step`, `Variable.Variable` |
| `Variable.B_flag` | variable.py:112-113 | `Objects.VObj`, `Objects.VHeap`, `Objects.VHeap.view`, `Objects.VOp`, `Objects.VHeap.step`, `Variable.BFlag`, `Variable.Variable` |
| `Variable.B_flag` | variable.py:116-119 | `Objects.VObj`, `Objects.VHeap`, `Objects.VHeap.view`, `Objects.VOp`, `Objects.VHeap.step`, `Variable.BFlag`, `Variable.Variable` |
| `Variable.gen_B` | variable.py:121-126 | `Variable.combos`, `Variable.genB` |
| `Variable.get_state` | variable.py:128-168 | `Basic.pyIndex`, `Basic.pyGet`, `Variable.combos`, `Variable.offset`, `Variable.getStateFly`, `Variable.Variable.getState` |
| `Variable.get_set` | variable.py:170-210 | `Variable.getSetLoop`, `Variable.Variable.getSet` |
| `Variable.find_state_from_vector` | variable.py:213-248 | `Variable.onePositions`, `Variable.findStateFromVector` |
| `Variable.get_Bst_from_Bvec` | variable.py:250-269 | `Variable.getBstFromBvec` |
| `Variable.update_B` | variable.py:272-279 | `Objects.VHeap.view`, `Objects.VOp`, `Objects.VHeap.step`, `Variable.Variable.updateB` |
| `Variable.__hash__` | variable.py:301-303 | `Objects.VKey`, `Objects.VKey.hash`, `Objects.keyGet`, `Objects.keySet` |
| `Variable.__lt__` | variable.py:305-307 | `Cpm.sortVars`, `Objects.VKey`, `Objects.VKey.eq`, `Objects.keyGet`, `Objects.keySet` |
| `Variable.__eq__` | variable.py:309-314 | `Objects.VKey`, `Objects.VKey.eq`, `Objects.keyGet`, `Objects.keySet` |
| `get_composite_state` | variable.py:320-338 | `Variable.getCompositeState` |
| `create_model` | EMA/batch.py:20-54 | `CreateModel.delayRate`, `CreateModel.delayCreate`, `CreateModel.readTable`, `CreateModel.nodeTable`, `CreateModel.arcTable`, `CreateModel.emaCreate` |
| `main` | EMA/batch.py:58-129 | `EmaMain.emaSet`, `EmaMain.emaDraws`, `EmaMain.emaProb`, `EmaMain.emaComp`, `EmaMain.emaRunCfg`, `EmaMain.EmaOut`, `EmaMain.emaFlag`, `EmaMain.emaMain` |
| `create_model` | SF/batch.py:19-53 | `CreateModel.delayRate`, `CreateModel.delayCreate`, `CreateModel.emaCreate` |
| `main` | SF/batch.py:66-98 | `ConnMain.connRunCfg`, `ConnMain.connCsys`, `ConnMain.sfMain` |
| `get_max_flow` | max_flow/batch.py:18-37 | `MaxFlowDemo.addEdgeIn`, `MaxFlowDemo.demoEdge`, `MaxFlowDemo.getMaxFlow` |
| `max_flow_fun` | max_flow/batch.py:40-67 | `MaxFlowDemo.demoRule`, `MaxFlowDemo.maxFlowFun` |
| `config_custom` | max_flow/batch.py:70-89 | `FlowMain.FlowCfg`, `FlowMain.flowConfig`, `FlowMain.cfgNum`, `FlowMain.flowLimit` |
| `read_model_from_json_custom` | max_flow/batch.py:92-106 | `FlowMain.FlowExt`, `FlowMain.FlowOd`, `FlowMain.readFlowOds` |
| `init_prob` | max_flow/batch.py:109-136 | `FlowMain.FlowExt`, `FlowMain.FlowProb`, `FlowMain.initFlowProb`, `FlowMain.FlowProb.prob`, `FlowMain.FlowProb.sysFun`, `MaxFlowDemo.demoSysFun` |
| `run_MCS` | max_flow/batch.py:140-151 | `FlowMain.flowMcsCfg`, `FlowMain.flowMcs` |
| `main` | max_flow/batch.py:155-192 | `FlowMain.flowRunCfg`, `FlowMain.FlowOut`, `FlowMain.flowMain` |
| `run_all` | max_flow/batch.py:202-220 | `FlowMain.flowAll` |
| `main` | n3e3/batch.py:17-56 | `ConnMain.ConnProbs`, `ConnMain.connRunCfg`, `ConnMain.connCsys`, `ConnMain.n3e3Main` |
| `read_model_from_json_custom` | pf_map/batch.py:19-39 | `PfMain.PfExt`, `PfMain.PfExt.dests`, `PfMain.pfConfig` |
| `cal_edge_dist` | pf_map/batch.py:43-82 | `PfMain.pfRoads`, `PfMap.RoadEdge`, `PfMap.RoadCfg`, `PfMap.roadRrup`, `PfMap.roadDist`, `PfMap.roadCov`, `PfMap.calEdgeDistOutput` |
| `cal_edge_dist_output` | pf_map/batch.py:85-127 | `PfMap.RoadEdge`, `PfMap.RoadCfg`, `PfMap.roadRrup`, `PfMap.roadDist`, `PfMap.roadCov`, `PfMap.RoadOut`, `PfMap.calEdgeDistOutput` |
| `shortest_distance` | pf_map/batch.py:130-159 | `PfMap.shortestDistance` |
| `gmpe_cam03` | pf_map/batch.py:162-227 | `PfMap.epsMw`, `PfMap.epsRrup`, `PfMap.epsVal`, `PfMap.epsGrid`, `PfMap.epsStd`, `PfMap.gmpeLnSa`, `PfMap.gmpeStdAl`, `PfMap.npClip`, `PfMap.gmpeCam03` |
| `mcs_unknown` | pf_map/batch.py:230-334 | `PfNode.mcsUnknown` |
| `config_custom` | pf_map/batch.py:337-357 | `PfMain.PfNum`, `PfMain.PfConf`, `PfMain.pfConfig` |
| `run_MCS` | pf_map/batch.py:361-395 | `PfMain.PfConf.prob`, `PfMain.PfDir`, `PfMain.pfMcsSys`, `PfMain.pfMcsCfg`, `PfMain.pfMcs` |
| `process_node` | pf_map/batch.py:398-490 | `PfNode.nodeVariable`, `PfNode.nodeSysFun`, `PfNode.PfCfg`, `PfNode.nodeCfg`, `PfNode.NodeOut`, `PfNode.processNode` |
| `main` | pf_map/batch.py:536-625 | `PfMain.PfConf.prob`, `PfMain.pfVaris`, `PfMain.pfInput`, `PfMain.PfDir`, `PfMain.PfWorld`, `PfMain.pfStored`, `PfMain.pfMain`, `PfNode.NodeLine`, `PfNode.nodeRecord`, `PfNode.pfMapMain` |
| `run_single` | pf_map/batch.py:629-660 | `PfMain.pfInput`, `PfMain.pfSingle` |
| `batch_comp` | pf_map/batch.py:664-670 | `PfMain.pfSingle`, `PfMain.pfBatch` |
| `parallel` | pf_map/batch.py:673-675 | `PfMain.pfBatch` |
| `cal_prob_dep` | pf_map/post.py:25-132 | `PfPost.DepArgs`, `PfPost.covGet`, `PfPost.depMean`, `PfPost.depCov`, `PfPost.depStep`, `PfPost.depArgs`, `PfPost.depRow`, `PfPost.depWeights`, `PfPost.noSuchFunction`, `PfPost.dropUnknown`, `PfPost.calProbDep` |
| `eval_pfs_dep` | pf_map/post.py:136-176 | `PfPost.postMap` |
| `update_pf1` | pf_map/post.py:178-216 | `PfPost.dropUnknown`, `PfPost.updateArcs`, `PfPost.updatePf1` |
| `update_pfs` | pf_map/post.py:218-262 | `PfPost.postMap` |
| `get_lins` | power_house/batch.py:19-39 | `PowerHouse.Name`, `PowerHouse.getLins` |
| `read_model_json` | power_house/batch.py:42-72 | `PowerPlot.PowerModel` |
| `quant_cpms` | power_house/batch.py:86-175 | `PowerHouse.Name`, `PowerHouse.hazName`, `PowerHouse.xName`, `PowerHouse.nName`, `PowerHouse.cName`, `PowerHouse.linkName`, `PowerHouse.PowerDicts`, `PowerHouse.rangeValues`, `PowerHouse.powerHaz`, `PowerHouse.structRows`, `PowerHouse.powerStruct`, `PowerHouse.countRows`, `PowerHouse.powerCount`, `PowerHouse.closureRows`, `PowerHouse.powerClosure`, `PowerHouse.powerLink`, `PowerHouse.powerHouse`, `PowerHouse.quantCpms` |
| `get_pole_conn` | power_house/batch.py:178-209 | `PowerPlot.polesListed`, `PowerPlot.firstHouse`, `PowerPlot.subTail`, `PowerPlot.ConnState`, `PowerPlot.connStep`, `PowerPlot.getPoleConn` |
| `add_pole_loc` | power_house/batch.py:212-219 | `PowerPlot.Pt`, `PowerPlot.poleLoc`, `PowerPlot.addPoleLoc` |
| `plot_result` | power_house/batch.py:222-251 | `PowerPlot.Drawing`, `PowerPlot.plotResult` |
| `main` | power_house/batch.py:255-355 | `PowerHouse.houseLins`, `PowerPlot.missingVE`, `PowerPlot.powerMain` |
| `create_model` | rbd/batch.py:20-70 | `GraphDemos.rbdSetup` |
| `main` | rbd/batch.py:81-137 | `GraphDemos.rbdCommand`, `Rbd.rbdVariable`, `Rbd.removeName`, `Rbd.rbdComp`, `Rbd.rbdCfg`, `Rbd.rbdRatio`, `Rbd.rbdSys`, `Rbd.rbdInfer`, `Rbd.rbdMain` |
| `create_model` | road/batch.py:15-62 | `CreateModel.delayRate`, `CreateModel.delayCreate`, `CreateModel.roadNodes`, `CreateModel.roadEdges`, `CreateModel.roadSpeeds`, `CreateModel.roadCreate` |
| `main` | road/batch.py:65-70 | `CreateModel.roadMain` |
| `setup` | routine/batch.py:15-37 | `GraphDemos.routineSetup` |
| `conn` | routine/batch.py:49-79 | `Conn.connAddEdge`, `Conn.arcOf`, `Conn.connInsert`, `Conn.connFun` |
| `main` | routine/batch.py:83-124 | `Conn.connSysFun`, `ConnMain.ConnProbs`, `ConnMain.ConnProbs.prob`, `ConnMain.connRunCfg`, `ConnMain.connCsys`, `ConnMain.routineVar`, `ConnMain.routineComp`, `ConnMain.routineMain`, `GraphDemos.routineProbs` |

## Functions without a definition that cites them (see DESIGN.md)

| function | lines |
|---|---|
| `Branch.__repr__` | branch.py:52-60 |
| `networkx_to_graphviz` | config.py:185-199 |
| `plot_graphviz` | config.py:202-206 |
| `Cpm.__repr__` | cpm.py:188-190 |
| `plot_graph` | trans.py:527-539 |
| `Variable.__repr__` | variable.py:316-317 |
| `nodes_edges` | EMA/bb.py:21-55 |
| `networkx_to_graphviz` | EMA/bb.py:58-72 |
| `main_sys` | EMA/bb.py:76-140 |
| `main_sys2` | EMA/bb.py:144-182 |
| `sub_sys` | EMA/bb.py:187-196 |
| `test_do_node` | EMA/bb.py:199-230 |
| `test_do_sub` | EMA/bb.py:233-282 |
| `test_do_incoming` | EMA/bb.py:285-342 |
| `test_do_capacity` | EMA/bb.py:345-422 |
| `test_run_pipes_fun` | EMA/bb.py:425-437 |
| `test_sys_fun_pipes0` | EMA/bb.py:440-451 |
| `test_sys_fun_pipes1` | EMA/bb.py:454-470 |
| `sys_fun_wrap` | EMA/bb.py:473-476 |
| `test_setup_brs` | EMA/bb.py:479-504 |
| `setup_brs` | EMA/bb.py:509-529 |
| `setup_comp_events` | EMA/bb.py:533-564 |
| `setup_inference` | EMA/bb.py:568-597 |
| `test_inference_case1_pipe` | EMA/bb.py:600-605 |
| `main` | EMA/brc.py:22-105 |
| `sf_min_path_rs` | EMA/reject_samp.py:49-51 |
| `plot` | SF/batch.py:57-62 |
| `debug` | max_flow/batch.py:196-198 |
| `debug` | pf_map/batch.py:494-532 |
| `write_output_jason` | power_house/batch.py:76-80 |
| `batch` | power_house/batch.py:359-361 |
| `plot` | rbd/batch.py:73-77 |
| `plot` | routine/batch.py:41-45 |
| `dummy` | routine/batch.py:127-365 |
| `main` | toy/batch.py:7-11 |

## Axioms of the property theorems

### none (3 theorems)

`C35_empty_raises`, `C87_monotone`, `C92_sampling_raises`

### propext (6 theorems)

`C38_keys_without_underscore`, `C40_lengths_raise`, `C77_not_template`, `C80_round_trip`, `C80_missing_entry`, `C82_display`

### propext, Classical.choice, Quot.sound (581 theorems)

`C01_get_set_defined`, `C01_get_state_get_set`, `C01_get_set_get_state`, `C02_storage_modes_agree_partial`, `C02_when_stored`, `C02_empty_set_disagrees`, `C03_table_complete`, `C03_basic_states_first`, `C03_ordered_by_size`, `C04_vector_lookup`, `C05_never_renumbers`, `C05_history`, `C05_complete_unchanged`, `C05_not_stored_raises`, `C06_product`, `C06_product_or_unbound`, `C06_common_child_rejected`, `C06_empty_operand_raises`, `C07_comm`, `C07_assoc`, `C07_list_product`, `C07_list_succeeds`, `C07_list_order`, `C08_condition`, `C08_condition_rows`, `C08_condition_without_probabilities`, `C08_samples`, `C09_sum`, `C09_sum_keep`, `C09_sum_all_raises`, `C09_samples`, `C10_sum_total`, `C11_get_prob`, `C11_complement`, `C11_event_probability`, `C11_without_table`, `C12_bounds`, `C12_conditional_bounds`, `C12_no_condition`, `C13_sort_partial`, `C13_samples_mismatched`, `C13_samples_partial`, `C13_samples_only`, `C13_rows_lost`, `C14_merge_partial`, `C14_missing_row_raises`, `C14_samples`, `C14_not_one_sided`, `C14_valid`, `C14_changes_self`, `C15_elimination_partial`, `C15_order_partial`, `C15_unknown_raises`, `C15_disconnected_raises`, `C15_parent_only_kept`, `C15_whenever_it_returns`, `C16_subset`, `C16_complement`, `C16_no_loss`, `C16_samples`, `C17_ismember`, `C17_argsort`, `C18_sound`, `C18_unknown`, `C18_known`, `C18_monotone`, `C20_semantic_survival`, `C20_semantic_failure`, `C22_partition`, `C23_probabilities`, `C24_labels_sound`, `C25_split_component`, `C25_terminates`, `C25_unknown_component`, `C25_compatible`, `C26_resolved`, `C26_enough_branches`, `C26_resume`, `C27_bounds`, `C27_returns`, `C27_returns_other`, `C28_exact_partial`, `C28_exact_iff`, `C28_enough_branches_partial`, `C28_complete_not_exact`, `C29_no_repeat_partial`, `C29_stops`, `C29_completes`, `C29_completes_other`, `C29_repeats`, `C30_monotone`, `C30_counts`, `C31_survival_first`, `C31_other_partial`, `C31_other_answers`, `C31_other_most_likely`, `C31_raises`, `C31_run_raises`, `C32_rows_partial`, `C32_complete_unchanged`, `C32_of_run`, `C32_no_branches`, `C32_unknown_label`, `C32_not_stored_raises`, `C33_run`, `C33_bounds`, `C33_exact_partial`, `C34_rule_prob_partial`, `C34_failure_wrong`, `C35_best_path_partial`, `C35_fastest`, `C35_monotone`, `C35_not_with_infinite_time`, `C37_partition_partial`, `C37_full_box`, `C37_not_decided_start`, `C38_what_is_read`, `C38_fresh_partial`, `C38_not_stale_files`, `C38_not_key_prefix`, `C38_reads_other_key_iff`, `C38_other_key`, `C38_resume`, `C39_rows`, `C39_undecided_raises`, `C39_not_stored_raises`, `C39_not_three_states`, `C40_partition`, `C40_foreign_component_raises`, `C40_path_problem`, `C40_not_three_states`, `C41_rows_partial`, `C41_none_complete_raises`, `C41_not_stored_raises`, `C41_not_three_states`, `C41_path_problem`, `C42_relevant`, `C42_ordered`, `C43_topological`, `C44_weight_partial`, `C44_vector_partial`, `C44_vector_output_partial`, `C44_state_zero_wrong`, `C44_listing_order_wrong`, `C44_common_child`, `C44_vector_mismatched`, `C45_max_partial`, `C45_min_partial`, `C45_max_same_values`, `C45_min_same_values`, `C45_max_initial_values`, `C45_min_initial_values`, `C45_no_table_raises`, `C45_max_wrong`, `C45_min_wrong`, `C46_rows_partial`, `C46_system_marginal_partial`, `C46_two_children_rejected`, `C46_two_conditions_raise`, `C47_max_flow_partial`, `C47_monotone`, `C47_not_parallel`, `C47_no_origin_raises`, `C47_parallel`, `C47_not_parallel_none`, `C48_time_partial`, `C48_multi_dest_partial`, `C48_connectivity`, `C48_monotone_time`, `C48_no_route_raises`, `C48_several_need_threshold`, `C48_not_multigraph`, `C48_not_zero_threshold`, `C49_pipes`, `C49_monotone`, `C49_no_success`, `C49_routes_partial`, `C49_not_routes`, `C50_mle_value`, `C50_mle_partial`, `C50_mle_variance`, `C50_rounds_raise`, `C50_refused`, `C50_bayes`, `C50_bayes_weighted`, `C50_bayes_unit`, `C50_not_rounds`, `C51_estimate`, `C51_terminates`, `C51_fuel`, `C51_not_terminates`, `C51_refused`, `C51_cpms`, `C51_missing`, `C52_ratio`, `C52_refused`, `C52_negative_q_accepted`, `C53_split`, `C54_accepts_invalid_state`, `C54_samples_decided`, `C54_samples_accept_composite`, `C55_get_col_ind`, `C55_get_col`, `C55_get_means`, `C55_means_without_probabilities`, `C55_get_variables`, `C55_get_variables_cpms`, `C56_log_product`, `C56_log_product_matrix`, `C57_conditioning_partial`, `C57_same_as_elimination`, `C57_not_row_order`, `C57_returns_iff`, `C57_complete_tables`, `C58_fastest_partial`, `C58_first_in_list`, `C58_missing_path_raises`, `C59_product_samples`, `C60_flag`, `C60_goes_on`, `C60_accuracy`, `C61_resumable`, `C61_bounds_kept`, `C61_no_reevaluation`, `C62_states`, `C62_travel_time_partial`, `C62_missing_arc_raises`, `C62_not_two_ods`, `C62_not_six_paths`, `C63_travel_time_bounds_partial`, `C63_travel_time_exact_partial`, `C63_connectivity`, `C64_flow_reliability_partial`, `C65_pipe_reliability`, `C65_pipe_routes_partial`, `C66_conditional_partial`, `C66_not_nested`, `C67_draw`, `C67_distribution`, `C67_expected`, `C67_unbiased_partial`, `C67_not_mixed`, `C68_draw`, `C68_result`, `C68_terminates`, `C68_fuel`, `C68_not_rare`, `C68_not_terminates`, `C68_refused`, `C69_not_samples`, `C69_not_returns`, `C69_not_found`, `C69_loop_partial`, `C70_system_by_conditioning_partial`, `C70_not_two_conditions`, `C70_not_shared_parent`, `C70_not_direct_parent`, `C70_not_dependent_components`, `C70_not_joint_with_parent`, `C70_not_row_order`, `C70_returns_partial`, `C71_all_paths`, `C71_fastest`, `C71_raises`, `C71_travel_time_partial`, `C71_not_disconnected`, `C72_read_partial`, `C72_last_connection`, `C72_not_parallel`, `C73_partition_partial`, `C73_agrees`, `C73_nobreak`, `C73_not_decided_start`, `C74_event_matrix_partial`, `C74_no_route_raises`, `C74_missing_scenario`, `C74_probability_partial`, `C74_not_multigraph`, `C74_not_seven_states`, `C74_not_zero_time`, `C75_file`, `C75_straight_line`, `C75_read_back_partial`, `C75_not_int_names`, `C75_not_parallel`, `C76_scenario`, `C76_file_partial`, `C76_not_all_scenarios`, `C76_not_small_probability`, `C77_records_partial`, `C78_component`, `C78_component_bounds`, `C78_component_exact_partial`, `C78_product`, `C78_product_upper`, `C78_not_joint`, `C79_update_B`, `C79_given_table`, `C79_constructed`, `C79_stale`, `C79_shared_default`, `C79_append`, `C80_wrong_kind`, `C80_probability_defined`, `C80_probability`, `C80_not_checked`, `C81_event_matrix_partial`, `C82_follows_run`, `C82_tables`, `C82_no_evaluation`, `C82_rules_survive`, `C82_branches`, `C82_changes_arguments`, `C82_labelled`, `C82_max_bu`, `C83_distance`, `C83_direction`, `C83_not_loop`, `C83_not_space`, `C84_decreasing`, `C84_increasing_partial`, `C84_not_increasing`, `C84_clip`, `C84_range`, `C84_not_table`, `C84_surface`, `C84_not_std_al`, `C85_roads`, `C85_loop_raises`, `C85_returns`, `C85_covariance`, `C86_parallel`, `C86_not_parallel_raises`, `C86_not_parallel_rule`, `C86_max_flow_fun_partial`, `C86_monotone`, `C86_directions`, `C86_reliability_partial`, `C86_no_origin_raises`, `C86_direction_matters`, `C86_not_parallel`, `C87_conn`, `C87_rule_partial`, `C87_reliability_partial`, `C87_tuples_raise`, `C87_same_node_raises`, `C87_missing_raises`, `C87_not_parallel`, `C88_samples_partial`, `C88_dropped`, `C88_missing_component_raises`, `C89_links`, `C89_cut_days_partial`, `C89_shipped_raises`, `C89_six_structures`, `C89_six_structures_dependent`, `C89_name_clash`, `C89_no_link`, `C89_conditional_raises`, `C90_constructor`, `C90_edits_partial`, `C90_new_table`, `C90_new_samples`, `C90_vector_one`, `C90_not_rows`, `C90_not_variables`, `C90_not_weights_first`, `C90_vector_query`, `C91_columns`, `C91_same_columns`, `C91_conditional_partial`, `C91_limits_partial`, `C91_name_order`, `C91_raises`, `C91_not_name_order`, `C91_not_unresolved`, `C92_destination`, `C92_bounds_partial`, `C92_exact_partial`, `C92_returns`, `C92_unreachable`, `C92_limit_raises`, `C92_closed_roads`, `C92_order`, `C92_all_or_nothing`, `C92_accuracy`, `C92_map_accuracy`, `C92_map_sound`, `C92_map_partial`, `C92_not_unreachable`, `C92_not_limits`, `C93_row`, `C93_row_partial`, `C93_not_opposite`, `C93_normalised`, `C93_margins`, `C93_not_two_roads`, `C93_not_returns`, `C93_attribute`, `C93_unknown_road`, `C93_update_not_returns`, `C93_update_attribute`, `C93_map`, `C93_two_states`, `C93_not_small`, `C94_conn`, `C94_chain`, `C94_midpoints`, `C94_midpoints_missing`, `C94_drawing_partial`, `C94_not_without_house`, `C94_not_houses`, `C94_not_main`, `C94_main_attribute`, `C95_main_partial`, `C95_independent`, `C95_all`, `C95_unknown_pair`, `C95_not_mcs`, `C95_missing_entry`, `C95_wrong_kind`, `C95_output_directory`, `C95_not_zero`, `C95_not_same_key`, `C96_road_unique`, `C96_main`, `C96_main_sound`, `C96_mcs`, `C96_not_mcs_origin`, `C96_not_mcs_unreachable`, `C96_mcs_needs_main`, `C96_missing_entry`, `C96_earthquake`, `C96_not_single`, `C96_batch`, `C97_n3e3`, `C97_sf`, `C97_no_evaluations`, `C97_routine`, `C97_check`, `C97_errors`, `C98_main`, `C98_narrows_partial`, `C98_check`, `C98_exact_partial`, `C98_answers`, `C98_errors`, `C98_not_two_times`, `C99_names`, `C99_numbers`, `C99_get_prob`, `C99_prob_bnd`, `C99_condition`, `C99_unknown`, `C99_mixed_get_prob`, `C99_mixed_condition`, `C99_compatible`, `C99_extra_labels`, `C99_repeated_label`, `C100_ema_files`, `C100_ema_errors`, `C100_ema_ready`, `C100_not_default_key`, `C100_delays`, `C100_ema_results`, `C100_road`, `C100_road_errors`, `C100_not_same_place`, `C100_not_parallel`, `C101_files`, `C101_routine`, `C101_rbd`, `C101_errors`, `C102_refines`, `C102_structure`, `C102_no_repeat`, `C102_returns`, `C102_returns_other`, `C102_bounds_partial`, `C102_exact`, `C102_pf_bnd`, `C102_nearest`, `C102_float64`, `C102_tolerance`, `C102_not_enclosed`, `C102_stops_early`, `C103_refines`, `C103_structure`, `C103_operations`, `C103_elimination_partial`, `C103_probability`, `C103_float53`, `C103_relative`, `C103_count`, `C103_relative_elimination_partial`, `C103_interval_round`, `C103_interval`, `C103_interval_double`, `C103_not_exact`, `C103_bounds_crossed`, `C103_underflow`, `C103_double_partial`, `C103_double_probability`, `C104_counted`, `C104_probabilities`, `C104_exact_partial`, `C104_double_partial`, `C104_not_one`, `C104_underflow_partial`, `C105_condition`, `C105_labels`, `C105_rejected`, `C105_elimination`, `C105_posterior`, `C105_system`, `C105_bounds`, `C105_impossible`, `C105_layout`, `C105_unseen`, `C106_condition`, `C106_posterior_partial`, `C106_bounds_partial`, `C106_underflow`, `C107_refines`, `C107_structure`, `C107_merge`, `C107_marginal_partial`, `C107_not_exact`, `C107_double_partial`, `C108_refines`, `C108_structure`, `C108_product`, `C108_system_partial`, `C108_not_exact`, `C108_returns_partial`, `C109_refines`, `C109_round_partial`, `C109_interval_partial`, `C109_double_partial`, `C109_not_small`, `C110_rules`, `C110_no_evaluation`, `C110_exact_partial`, `C110_branches_ignored`, `C110_not_branches`, `C110_inference`, `C110_any_arithmetic`, `C110_tolerance_partial`, `C111_between`, `C111_looser`, `C111_stricter`, `C111_travel_time_partial`, `C111_not_all`, `C111_flow_partial`, `C111_pipes`, `C111_tolerance_partial`, `C112_true_values`, `C112_bounds`, `C112_exact_partial`, `C112_tolerance`, `C112_not_each_bound`, `C113_bounds`, `C113_exact_partial`, `C113_two_runs_partial`, `C113_tolerance`, `C113_sharp`, `C114_bounds`, `C114_exact_partial`, `C114_tolerance`, `C114_not_unfinished`, `C115_local`, `C115_local_exact`, `C115_bounds`, `C115_not_coherent`, `C115_determined`, `C115_must_evaluate`, `C115_extremal_rules`, `C115_cost`, `C115_tolerance`, `C115_sharp_partial`, `C115_sharp_not_max_sf`

### propext, Quot.sound (39 theorems)

`C04_Bvec`, `C16_out_of_range`, `C17_setdiff`, `C19_survival`, `C19_failure`, `C19_unknown_kind`, `C20_irredundant`, `C20_from_empty`, `C21_run_sys_fn`, `C22_disjoint_cover`, `C35_missing_arc_raises`, `C36_split`, `C36_any_arcs`, `C48_monotone_connectivity`, `C48_multigraph_ignores_states`, `C51_column`, `C53_split_negative`, `C53_all_equal`, `C54_constructor_partial`, `C54_rejects`, `C54_samples_partial`, `C55_get_var_idx`, `C58_not_unsorted`, `C73_no_path_raises`, `C75_read_nodes`, `C79_keys`, `C79_keys_kept`, `C80_equal`, `C81_config`, `C81_without_scenarios`, `C81_required`, `C81_not_optional`, `C81_wrong_kind`, `C81_only_if`, `C86_dictionaries_raise`, `C86_no_edges_raises`, `C90_not_vector`, `C93_new_probabilities`, `C100_repeated_node`

